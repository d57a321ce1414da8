import Verif.Spec.Args
/-
The name of a type (DWARF 5, 5.1, 5.3, 5.9): its own, or that of what it is made of, with what makes it that type after it.
-/
namespace Pstack.Spec
open Pstack.Die

/-- Types made of another: pointers (0xf), references (0x10), constant (0x26) and volatile (0x35) types, and what is written after the other type; restricted pointers (0x37), rvalue references
(0x42) and atomic types (0x47). -/
def typeSuffix (tag : Nat) : Option (List Byte) :=
  match tag with
  | 0x0f => some (asciiText " *")
  | 0x10 => some (asciiText "&")
  | 0x26 => some (asciiText " const")
  | 0x35 => some (asciiText " volatile")
  | 0x37 => some (asciiText " restrict")
  | 0x42 => some (asciiText "&&")
  | 0x47 => some (asciiText " _Atomic")
  | _ => none

/-- The first four. -/
def fourSuffixes (tag : Nat) : Option (List Byte) := if tag ≤ 0x35 then typeSuffix tag else none

/-- The name of a type; `none` is void, `sfx` is what is written of types made of another. The parameters of a function type (0x15) are in parentheses. -/
inductive TypeNamed (sfx : Nat → Option (List Byte)) (d : Sections) (xs : List DieUnit) : Option EntryRef → List Byte → Prop
  | void : TypeNamed sfx d xs none (asciiText "void")
  | named {p n} : NamedAs d xs p n → n ≠ [] → TypeNamed sfx d xs (some p) n
  | made {p r t after} : NamedAs d xs p [] → sfx p.e.decl.tag = some after → TypeOf xs p r → TypeNamed sfx d xs r t → TypeNamed sfx d xs (some p) (t ++ after)
  | function {p r t F} {rs : List (Option EntryRef)} {ts : List (List Byte)} : NamedAs d xs p [] → p.e.decl.tag = 0x15 → TypeOf xs p r → TypeNamed sfx d xs r t → (p.x.placed p.uo).KidsOf (p.o, p.e) F →
      rs.length = (parameters p.uo p.x F).length → ts.length = rs.length → (∀ (i : Nat) q r, (parameters p.uo p.x F)[i]? = some q → rs[i]? = some r → TypeOf xs q r) →
      (∀ (i : Nat) r t, rs[i]? = some r → ts[i]? = some t → TypeNamed sfx d xs r t) →
      TypeNamed sfx d xs (some p) (t ++ (asciiText "(" ++ (argumentText ts ++ asciiText ")")))

end Pstack.Spec
