import Verif.Model.Args
/-
Model of the name of a type: dwarf_die.cc:688-722.
-/
namespace Pstack.TypeName
open Pstack.Dwarf Pstack.Reader Pstack.Die Pstack.Args

/-- What is written after the type that a type is made of. dwarf_die.cc:700-705, 718-719 -/
def suffix (tag : Nat) : Option (List Byte) :=
  if tag = 0x0f then some (say " *")
  else if tag = 0x26 then some (say " const")
  else if tag = 0x35 then some (say " volatile")
  else if tag = 0x10 then some (say "&")
  else none

/-- The loop over the children of a function type; `shows` is `typeName`. dwarf_die.cc:709-715 -/
def paramTypes (d : Sections) (fuel : Nat) (shows : Option DIE → IState → Res (List Byte × IState)) : Nat → Option DIE → DIE → Bool → IState → Res (List Byte × IState)
  | 0, _, _, _, _ => .ub
  | _ + 1, none, _, _, s => .ok ([], s)
  | n + 1, some k, parent, first, s => do
      let r ← rawOf s k
      if r.type.tag = 5 then do
        let (y, s) ← typeOf d fuel k s
        let (t, s) ← shows y s
        let (k', s) ← kidsNext k parent s
        let (ts, s) ← paramTypes d fuel shows n k' parent false s
        .ok ((if first then [] else say ", ") ++ (t ++ ts), s)
      else do
        let (k', s) ← kidsNext k parent s
        paramTypes d fuel shows n k' parent first s

/-- `DIE::typeName()`. `Tag` is an unscoped enumeration, which is written as a number. `fuel` is for `attribute`, `rounds` for the loop, and then the depth of the recursion. dwarf_die.cc:688-722 -/
def typeName (d : Sections) (fuel rounds : Nat) : Nat → Option DIE → IState → Res (List Byte × IState)
  | 0, _, _ => .ub
  | _ + 1, none, s => .ok (say "void", s)
  | depth + 1, some x, s => do
      let (n, s) ← dieName d fuel x s
      if n ≠ [] then .ok (n, s)
      else do
        let (base, s) ← typeOf d fuel x s
        let r ← rawOf s x
        match suffix r.type.tag with
        | some after => do
            let (t, s) ← typeName d fuel rounds depth base s
            .ok (t ++ after, s)
        | none =>
            if r.type.tag = 0x15 then do
              let (t, s) ← typeName d fuel rounds depth base s
              let (k, s) ← kidsBegin x s
              let (ts, s) ← paramTypes d fuel (fun y s => typeName d fuel rounds depth y s) rounds k x true s
              .ok (t ++ (say "(" ++ (ts ++ say ")")), s)
            else .ok (say "(unhandled tag " ++ (dec r.type.tag ++ say ")"), s)

end Pstack.TypeName
