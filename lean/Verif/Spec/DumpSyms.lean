import Verif.Spec.Elf
import Verif.Spec.DumpCfa
/-
What is shown of symbols and relocations.
-/
namespace Pstack.Spec
open Pstack.Elf Pstack.Reader

/-- The names ELF has for bindings. -/
def elfBinding : Nat → Option String
  | 0 => some "STB_LOCAL"
  | 1 => some "STB_GLOBAL"
  | 2 => some "STB_WEAK"
  | 10 => some "STB_GNU_UNIQUE"
  | 13 => some "STB_LOPROC"
  | 15 => some "STB_HIPROC"
  | _ => none

/-- The names ELF has for types of symbols. -/
def elfSymType : Nat → Option String
  | 0 => some "STT_NOTYPE"
  | 1 => some "STT_OBJECT"
  | 2 => some "STT_FUNC"
  | 3 => some "STT_SECTION"
  | 4 => some "STT_FILE"
  | 5 => some "STT_COMMON"
  | 6 => some "STT_TLS"
  | 10 => some "STT_GNU_IFUNC"
  | 13 => some "STT_LOPROC"
  | 15 => some "STT_HIPROC"
  | _ => none

/-- The object for a symbol, with its name as UTF-16, and names for its binding and its type. -/
def symObject (units : List Nat) (binding type : String) (s : Sym) : JVal :=
  .obj [(charCodes "name", .str units), (charCodes "value", .int s.value), (charCodes "size", .int s.size),
    (charCodes "info", .int s.info), (charCodes "binding", .str (charCodes binding)), (charCodes "type", .str (charCodes type)),
    (charCodes "other", .int s.other), (charCodes "shndx", .int s.shndx)]

/-- What is to be shown of a symbol named `cs`. -/
def SymShownAs (cs : List Nat) (s : Sym) (v : JVal) : Prop :=
  ∃ b t, elfBinding (s.info / 16) = some b ∧ elfSymType (s.info % 16) = some t ∧ v = symObject (utf16s cs) b t s

/-- Bindings and types other than those that are shown under another name. -/
def FairSym (s : Sym) : Prop :=
  s.info / 16 ∈ [0, 1, 2, 13] ∧ s.info % 16 ∈ [0, 1, 2, 3, 4, 13, 15]

/-- The name (as UTF-8) is in the strings at the place the symbol says. -/
def SymNamed (strings : Rdr) (cs : List Nat) (s : Sym) : Prop :=
  ∃ rest, strings.content.drop s.name = utf8s cs ++ 0#8 :: rest

/-- A list of values, each of them for one of the things. -/
inductive EachShown {α : Type} (R : α → JVal → Prop) : List α → List JVal → Prop
  | nil : EachShown R [] []
  | cons {a : α} {as : List α} {v : JVal} {vs : List JVal} : R a v → EachShown R as vs → EachShown R (a :: as) (v :: vs)

/-- `Elf64_Rela`: where, the type and the symbol, and the addend. -/
structure Relocation where
  offset : Nat
  type : Nat
  sym : Nat
  addend : Nat

def Relocation.bytes (r : Relocation) : List Byte :=
  leBytes 8 r.offset ++ (leBytes 4 r.type ++ leBytes 4 r.sym) ++ leBytes 8 r.addend

def Relocation.InRange (r : Relocation) : Prop := r.offset < 2 ^ 64 ∧ r.type < 2 ^ 32 ∧ r.sym < 2 ^ 32 ∧ r.addend < 2 ^ 64

def Relocation.shown (r : Relocation) : JVal :=
  .obj [(charCodes "r_offset", .int r.offset), (charCodes "r_info-sym", .int r.sym), (charCodes "r_info-type", .int r.type)]

end Pstack.Spec
