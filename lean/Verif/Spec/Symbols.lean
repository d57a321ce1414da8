import Verif.Model.Symbols
import Verif.Spec.Elf
/-
The symbols of the objects of a process.
-/
namespace Pstack.Spec
open Pstack.Reader Pstack.Elf Pstack.Symbols

/-- What an object defines: the dynamic symbols that are in its hash table (by their indices), and the symbols of the symbol table. -/
structure ImageSyms where
  dynamic : DynTable
  entered : Nat → Prop
  debug : DynTable

/-- The hash table the dynamic linker would use is right: a DT_GNU_HASH table, or else a DT_HASH table (here the names are to be of 7-bit characters), or there is none, and then there are no
symbols in it. -/
inductive DynOk (name : List Byte) (t : DynTable) (entered : Nat → Prop) : Option GnuHash → Option SymHash → Prop
  | gnu (g : GnuTable) (hash symtab strtab : Rdr) (x : GnuHash) (other : Option SymHash) : g.Good t → hash.WF → hash.content = g.bytes → t.In symtab strtab →
      GnuHash.make hash symtab strtab = .ok x → (∀ i, entered i ↔ g.symoffset ≤ i) → DynOk name t entered (some x) other
  | sysv (h : SysvTable) (hash symtab strtab : Rdr) (x : SymHash) : h.Good t entered → hash.WF → hash.content = h.bytes → t.In symtab strtab →
      SymHash.make hash symtab strtab = .ok x → (∀ b ∈ name, b.toNat < 128) → DynOk name t entered none (some x)
  | none : (∀ i, ¬entered i) → DynOk name t entered none none

/-- The tables of an object are those of its symbols. -/
structure SymsOk (name : List Byte) (tabs : SymTabs) (d : ImageSyms) : Prop where
  dynamic : DynOk name d.dynamic d.entered tabs.gnu tabs.hash
  debug : d.debug.In tabs.debug.symbols tabs.debug.strings
  /-- No name is that of a definition and of a reference in the hash table. -/
  alike : ∀ i j s u, d.entered i → d.entered j → d.dynamic.syms[i]? = some s → d.dynamic.syms[j]? = some u → d.dynamic.nameOf s = name → d.dynamic.nameOf u = name → (s.shndx = 0 ↔ u.shndx = 0)

/-- A dynamic symbol of this name is defined in the object. -/
def ImageSyms.Exports (d : ImageSyms) (name : List Byte) (s : Sym) : Prop :=
  ∃ i : Nat, d.entered i ∧ d.dynamic.syms[i]? = some s ∧ d.dynamic.nameOf s = name ∧ s.shndx ≠ 0

/-- The last symbol of this name in the symbol table. -/
def ImageSyms.LastDebug (d : ImageSyms) (name : List Byte) (s : Sym) : Prop :=
  ∃ i : Nat, d.debug.syms[i]? = some s ∧ d.debug.nameOf s = name ∧ ∀ (j : Nat) u, i < j → d.debug.syms[j]? = some u → d.debug.nameOf u ≠ name

/-- The object has this symbol for the name: a dynamic symbol, or if there is none and the symbol table is to be used too, the last there is in it, in each case only if it is defined. -/
def ImageSyms.Offers (d : ImageSyms) (includeDebug : Bool) (name : List Byte) (s : Sym) : Prop :=
  d.Exports name s ∨ ((∀ u, ¬d.Exports name u) ∧ includeDebug = true ∧ d.LastDebug name s ∧ s.shndx ≠ 0)

/-- The first of the objects, in the order of the list, that is asked for and has the symbol. -/
def FirstOffer (d : Nat → ImageSyms) (includeDebug : Bool) (asked : List Byte → Bool) (name : List Byte) (objs : List Loaded) (k base : Nat) (s : Sym) : Prop :=
  ∃ before l after, objs = before ++ l :: after ∧ asked l.name = true ∧ l.obj = some k ∧ l.base = base ∧ (d k).Offers includeDebug name s ∧
    ∀ q ∈ before, asked q.name = true → ∀ j, q.obj = some j → ∀ u, ¬(d j).Offers includeDebug name u

/-- None has it. -/
def NoOffer (d : Nat → ImageSyms) (includeDebug : Bool) (asked : List Byte → Bool) (name : List Byte) (objs : List Loaded) : Prop :=
  ∀ q ∈ objs, asked q.name = true → ∀ j, q.obj = some j → ∀ u, ¬(d j).Offers includeDebug name u

/-- The caches after any lookups: of any names, in any objects, with or without the symbol table, whether they found anything or not. -/
inductive SymHistory (imgs : Nat → SymTabs) : Caches → Prop
  | start : SymHistory imgs (fun _ => none)
  | step {m : Caches} (name : List Byte) (includeDebug : Bool) (asked : List Byte → Bool) (objs : List Loaded) : SymHistory imgs m →
      SymHistory imgs (resolveDetail imgs name includeDebug asked objs m).2

end Pstack.Spec
