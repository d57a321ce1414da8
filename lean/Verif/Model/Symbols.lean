import Verif.Model.Elf
/-
Symbols of a process, by name: `Object::findDebugSymbol` (elf.cc), `Process::resolveSymbol`, `Process::resolveSymbolDetail` (process.cc) and `ps_pglobal_lookup` (proc_service.cc).
-/
namespace Pstack.Symbols
open Pstack.Reader Pstack.Elf

/-- What an object has for looking up symbols: the hash tables of its dynamic symbols, and the symbol table. How these are found is in Model/Sections.lean; that reading them the first
time may fail is not modelled. elf.h:328-336, elf.cc:525-533, 546 -/
structure SymTabs where
  gnu : Option GnuHash
  hash : Option SymHash
  debug : Symtab

/-- `cachedSymbols`: names and indices; the first with a name counts. elf.h:353 -/
abbrev SymCache := List (List Byte × Nat)

/-- The loop that fills the cache, with `n` symbols left, from the index `i` (`w` is what the array has read ahead). What was put in before an exception stays in. elf.cc:549-551 -/
def fillSymbols (t : Symtab) : Nat → ArrWin → Nat → SymCache → Res Unit × SymCache
  | 0, _, _, c => (.ok (), c)
  | n + 1, w, i, c =>
      match w.getitem t.symbols.read 0 24 (1024 / 24) i with
      | (w, .ok bs) =>
          match t.nameOf (Sym.decode bs) with
          | .ok name => fillSymbols t n w (i + 1) ((name, i) :: c)
          | .exc => (.exc, c)
          | .ub => (.ub, c)
          | .abort => (.abort, c)
      | (_, .exc) => (.exc, c)
      | (_, .ub) => (.ub, c)
      | (_, .abort) => (.abort, c)

/-- The cache, filled the first time. It exists before it is filled; the table itself is made (and may be refused for its size) before that. elf.cc:546-552, reader.h:289-296 -/
def loadSymbols (t : Symtab) : Option SymCache → Res Unit × Option SymCache
  | c =>
      if t.symbols.size ≠ maxOff ∧ t.symbols.size % 24 ≠ 0 then (.exc, c)
      else match c with
        | some c => (.ok (), some c)
        | none =>
            match fillSymbols t (t.symbols.size / 24) ⟨0, []⟩ 0 [] with
            | (r, c) => (r, some c)

/-- The symbol the cache has for a name. elf.cc:553-556 -/
def cachedSymbol (t : Symtab) (name : List Byte) (c : SymCache) : Res (Sym × Nat) :=
  match c.find? (fun e => e.1 == name) with
  | none => .ok (undefSym, 0)
  | some e => do
      let s ← readSym t.symbols e.2
      .ok (s, e.2)

/-- `Object::findDebugSymbol(name)`. elf.cc:541-557 -/
def findDebugSymbol (t : Symtab) (name : List Byte) (c : Option SymCache) : Res (Sym × Nat) × Option SymCache :=
  match loadSymbols t c with
  | (.ok (), c) => (cachedSymbol t name (c.getD []), c)
  | (.exc, c) => (.exc, c)
  | (.ub, c) => (.ub, c)
  | (.abort, c) => (.abort, c)

/-- An entry of `Process::objects`: the load address, the name of the file, and the object (a number; the same object may be at several addresses), if there is one.
process.h:287-330, 380 -/
structure Loaded where
  base : Nat
  name : List Byte
  obj : Option Nat

/-- The caches of the objects. -/
abbrev Caches := Nat → Option SymCache

def Caches.set (m : Caches) (k : Nat) (c : Option SymCache) : Caches := fun i => if i = k then c else m i

/-- `Process::resolveSymbolDetail`: the object, the load address and the symbol. The list is that of `objects`, in the order of addresses. process.cc:940-960 -/
def resolveDetail (imgs : Nat → SymTabs) (name : List Byte) (includeDebug : Bool) (matches_ : List Byte → Bool) : List Loaded → Caches → Res (Nat × Nat × Sym) × Caches
  | [], m => (.exc, m)
  | l :: rest, m =>
      if matches_ l.name = false then resolveDetail imgs name includeDebug matches_ rest m
      else match l.obj with
        | none => resolveDetail imgs name includeDebug matches_ rest m
        | some k =>
            match findDynamicSymbol (imgs k).gnu (imgs k).hash name with
            | .ok (s, _) =>
                if s.shndx ≠ 0 then (.ok (k, l.base, s), m)
                else if includeDebug then
                  match findDebugSymbol (imgs k).debug name (m k) with
                  | (.ok (s, _), c) =>
                      if s.shndx ≠ 0 then (.ok (k, l.base, s), m.set k c)
                      else resolveDetail imgs name includeDebug matches_ rest (m.set k c)
                  | (.exc, c) => (.exc, m.set k c)
                  | (.ub, c) => (.ub, m.set k c)
                  | (.abort, c) => (.abort, m.set k c)
                else resolveDetail imgs name includeDebug matches_ rest m
            | .exc => (.exc, m)
            | .ub => (.ub, m)
            | .abort => (.abort, m)

/-- `Process::resolveSymbol`. process.cc:962-969 -/
def resolveSymbol (imgs : Nat → SymTabs) (name : List Byte) (includeDebug : Bool) (matches_ : List Byte → Bool) (objs : List Loaded) (m : Caches) : Res Nat × Caches :=
  match resolveDetail imgs name includeDebug matches_ objs m with
  | (.ok (_, base, s), m) => (.ok ((base + s.value) % W64), m)
  | (.exc, m) => (.exc, m)
  | (.ub, m) => (.ub, m)
  | (.abort, m) => (.abort, m)

/-- `std::filesystem::path(name).filename()`: what is after the last slash. -/
def fileName (name : List Byte) : List Byte := (name.reverse.takeWhile (· ≠ 0x2f#8)).reverse

/-- "libc.so.6" -/
def libcName : List Byte := [0x6c#8, 0x69#8, 0x62#8, 0x63#8, 0x2e#8, 0x73#8, 0x6f#8, 0x2e#8, 0x36#8]

/-- The objects `ps_pglobal_lookup` looks in. proc_service.cc:50-58 -/
def lookupIn (object : Option (List Byte)) (name : List Byte) : Bool :=
  match object with
  | none => true
  | some o => fileName name == o || fileName name == libcName

/-- `ps_pglobal_lookup`: the address, or `none` for PS_ERR. proc_service.cc:43-64 -/
def psLookup (imgs : Nat → SymTabs) (object : Option (List Byte)) (symbol : List Byte) (objs : List Loaded) (m : Caches) : Res (Option Nat) × Caches :=
  match resolveSymbol imgs symbol true (lookupIn object) objs m with
  | (.ok a, m) => (.ok (some a), m)
  | (.exc, m) => (.ok none, m)
  | (.ub, m) => (.ub, m)
  | (.abort, m) => (.abort, m)

end Pstack.Symbols
