import Verif.Spec.FindEntry
import Verif.Spec.AttrValue
/-
The qualified name of what an entry describes: its name, and before it those of the scopes it is declared in (C++ [basic.lookup.qual]; DWARF 5, 2.13.2, 2.15, 3.3.8.1).
-/
namespace Pstack.Spec
open Pstack.Die

/-- The entry says that what it describes is declared in another entry: its specification (0x47), or else its abstract origin (0x31). -/
inductive LinkTo (xs : List DieUnit) (uo : Nat) (e : DieEntry) : Nat → DieUnit → Nat → DieEntry → Prop
  | specification {uo' x' o' e'} : RefersTo uo e 0x47 o' → EntryIn xs uo' x' o' e' → LinkTo xs uo e uo' x' o' e'
  | origin {uo' x' o' e'} : e.find 0x47 = none → RefersTo uo e 0x31 o' → EntryIn xs uo' x' o' e' → LinkTo xs uo e uo' x' o' e'

/-- It does not say so. -/
def NoLink (e : DieEntry) : Prop := e.find 0x47 = none ∧ e.find 0x31 = none

/-- The name (3) of an entry; without one it is empty. -/
inductive NameOf (d : Sections) (x : DieUnit) (e : DieEntry) : List Byte → Prop
  | named {i a v n} : e.find 3 = some i → e.decl.attrs[i]? = some a → e.vals[i]? = some v → HasString d x a v n → NameOf d x e n
  | anonymous : e.find 3 = none → NameOf d x e []

/-- The root of a unit: a compile unit (0x11) or a partial unit (0x3c). -/
def isUnitTag (t : Nat) : Bool := t = 0x11 || t = 0x3c

/-- What names are qualified with: classes (2), structures (0x13), unions (0x17) and namespaces (0x39). -/
def isScopeTag (t : Nat) : Bool := t = 0x02 || t = 0x13 || t = 0x17 || t = 0x39

/-- `(po, pe)` is the parent of the entry at `o`. -/
def ParentOf (x : DieUnit) (uo po : Nat) (pe : DieEntry) (o : Nat) (e : DieEntry) : Prop := ((po, pe), (o, e)) ∈ (x.placed uo).withParent

/-- The scopes that the members of an entry are in, the outermost first, with their tags: where the entry is declared, the scopes of its parent, and the entry if it is a scope. -/
inductive Scopes (d : Sections) (xs : List DieUnit) : Nat → DieUnit → Nat → DieEntry → List (Nat × List Byte) → Prop
  | link {uo x o e uo' x' o' e' l} : EntryIn xs uo x o e → LinkTo xs uo e uo' x' o' e' → Scopes d xs uo' x' o' e' l → Scopes d xs uo x o e l
  | unit {uo x o e} : EntryIn xs uo x o e → NoLink e → isUnitTag e.decl.tag → Scopes d xs uo x o e []
  | scope {uo x o e po pe l n} : (uo, x) ∈ placeUnits 0 xs → ParentOf x uo po pe o e → NoLink e → isScopeTag e.decl.tag → NameOf d x e n → Scopes d xs uo x po pe l →
      Scopes d xs uo x o e (l ++ [(e.decl.tag, n)])
  | other {uo x o e po pe l} : (uo, x) ∈ placeUnits 0 xs → ParentOf x uo po pe o e → NoLink e → isUnitTag e.decl.tag = false → isScopeTag e.decl.tag = false → Scopes d xs uo x po pe l →
      Scopes d xs uo x o e l

/-- What the entry describes is declared in the scopes `l`, and has the name `n`. -/
inductive DeclaredAs (d : Sections) (xs : List DieUnit) : Nat → DieUnit → Nat → DieEntry → List (Nat × List Byte) → List Byte → Prop
  | link {uo x o e uo' x' o' e' l n} : EntryIn xs uo x o e → LinkTo xs uo e uo' x' o' e' → DeclaredAs d xs uo' x' o' e' l n → DeclaredAs d xs uo x o e l n
  | here {uo x o e po pe l n} : (uo, x) ∈ placeUnits 0 xs → ParentOf x uo po pe o e → NoLink e → isUnitTag e.decl.tag = false → NameOf d x e n → Scopes d xs uo x po pe l →
      DeclaredAs d xs uo x o e l n

/-- The names, with "::" between them. -/
def qualified (l : List (Nat × List Byte)) (n : List Byte) : List Byte := List.intercalate [0x3a#8, 0x3a#8] (l.map (·.2) ++ [n])

/-- The scopes, unions left out. -/
def withoutUnions (l : List (Nat × List Byte)) : List (Nat × List Byte) := l.filter (fun p => p.1 ≠ 0x17)

/-- Where the code of a function begins: its low address (0x11), which it may inherit, or else its first range. -/
inductive StartsAt (d : Sections) (xs : List DieUnit) (uo : Nat) (x : DieUnit) (o : Nat) (e : DieEntry) : Nat → Prop
  | low {uo' x' o' e' i n} : Inherits xs 0x11 uo o e (some (uo', x', o', e', i)) → AttrNumber d x' e' i n → StartsAt d xs uo x o e n
  | range {n m l} : Inherits xs 0x11 uo o e none → EntryRanges d xs uo x o e ((n, m) :: l) → StartsAt d xs uo x o e n

/-- The entry does not say. -/
def NoStart (xs : List DieUnit) (uo o : Nat) (e : DieEntry) : Prop := Inherits xs 0x11 uo o e none ∧ Inherits xs 0x55 uo o e none

end Pstack.Spec
