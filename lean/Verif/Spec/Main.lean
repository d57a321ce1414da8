import Verif.Model.Main
/-
What the command does with its arguments.
-/
namespace Pstack.Spec.Cmd
open Pstack.Main

/-- The number these decimal digits stand for. -/
def decimal (ds : List Nat) : Nat := ds.foldl (fun n d => 10 * n + d) 0

/-- The text is this number: decimal digits, with a minus sign if it is negative. -/
def Numeral (t : List Char) (z : Int) : Prop :=
  ∃ ds : List Nat, ds ≠ [] ∧ (∀ d ∈ ds, d < 10) ∧
    ((t = ds.map (fun d => Char.ofNat (48 + d)) ∧ z = decimal ds) ∨ (t = '-' :: ds.map (fun d => Char.ofNat (48 + d)) ∧ z = -(decimal ds : Int)))

/-- An argument is the number of a process. -/
def IsPid (t : List Char) (z : Int) : Prop := Numeral t z ∧ -2 ^ 31 ≤ z ∧ z < 2 ^ 31

/-- An argument is the name of a file. -/
def IsFile (t : List Char) : Prop := ∀ z, ¬IsPid t z

/-- The argument is an ELF object that is not a core, and can be used as an executable. -/
def Image (w : World) (arg : List Char) : Prop := IsFile arg ∧ (∃ ty, w.elfType arg = some ty ∧ ty ≠ 4) ∧ w.image arg = true

/-- The executable to assume for the argument `i`: the last image before it, or else that of the option. -/
def InForce (w : World) (e : Exec) (args : List (List Char)) (i : Nat) (x : Exec) : Prop :=
  (∃ (j : Nat) (a : List Char), j < i ∧ args[j]? = some a ∧ Image w a ∧ x = some a ∧ ∀ (k : Nat) (b : List Char), j < k → k < i → args[k]? = some b → ¬Image w b) ∨
  ((∀ (k : Nat) (b : List Char), k < i → args[k]? = some b → ¬Image w b) ∧ x = e)

/-- The argument stands for this process, which can be opened. -/
inductive Opens (w : World) (x : Exec) : List Char → Target → Prop
  | process (arg : List Char) (pid : Int) : IsPid arg pid → w.alive pid = true → w.opens (.process pid) x = true → Opens w x arg (.process pid)
  | core (arg : List Char) : IsFile arg → w.elfType arg = some 4 → w.opens (.core arg) x = true → Opens w x arg (.core arg)

/-- Which stacks of a process are shown: with `-p` those of Python, and it is a failure if there are none; with `-A` both; otherwise the native ones. -/
inductive Stacks (w : World) (o : Opts) (t : Target) (x : Exec) : List Act → Prop
  | native : o.python = false → o.all = false → w.native t x = true → Stacks w o t x [.native t x]
  | python : o.python = true → w.python t x = some true → Stacks w o t x [.python t x]
  | both : o.python = false → o.all = true → w.python t x = some true → w.native t x = true → Stacks w o t x [.python t x, .native t x]
  | other : o.python = false → o.all = true → w.python t x = some false → w.native t x = true → Stacks w o t x [.native t x]

/-- What has been printed when showing the stacks fails. -/
def Before (w : World) (o : Opts) (t : Target) (x : Exec) (acts : List Act) : Prop :=
  (o.python = false ∧ o.all = true ∧ w.python t x = some true ∧ acts = [.python t x]) ∨ (¬(o.python = false ∧ o.all = true ∧ w.python t x = some true) ∧ acts = [])

/-- What comes of an argument: what is printed, and whether it failed. -/
inductive Outcome (w : World) (o : Opts) (x : Exec) (arg : List Char) : List Act → Bool → Prop
  | image : Image w arg → Outcome w o x arg [] false
  | stacks (t : Target) (acts : List Act) : Opens w x arg t → Stacks w o t x acts → Outcome w o x arg acts false
  /-- Those of Python may have been printed. -/
  | broken (t : Target) (acts : List Act) : Opens w x arg t → (∀ acts, ¬Stacks w o t x acts) → Before w o t x acts → Outcome w o x arg (acts ++ [.failed arg]) true
  | closed : ¬Image w arg → (∀ t, ¬Opens w x arg t) → Outcome w o x arg [.failed arg] true

/-- The outcomes of all arguments, in their order. -/
def Outcomes (w : World) (o : Opts) (e : Exec) (args : List (List Char)) (outs : List (List Act × Bool)) : Prop :=
  outs.length = args.length ∧ ∀ (i : Nat) (arg : List Char), args[i]? = some arg → ∃ x out, InForce w e args i x ∧ outs[i]? = some out ∧ Outcome w o x arg out.1 out.2

end Pstack.Spec.Cmd
