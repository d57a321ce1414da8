import Verif.Spec.RegValues
import Verif.Spec.CallChain
import Verif.Spec.CoreNotes
import Verif.Model.Stacks
/-
What is known of the threads of a process.
-/
namespace Pstack.Spec
open Pstack.Arch Pstack.Unwind Pstack.Stacks

/-- The last thread the thread library tells of that runs on this lwp. -/
def ThreadOn (is : List (Option Info)) (id : Nat) : Option Info → Prop
  | some i => ∃ a b, is = a ++ some i :: b ∧ i.lid = id ∧ ∀ j, some j ∈ b → j.lid ≠ id
  | none => ∀ j, some j ∈ is → j.lid ≠ id

/-- The stack of an lwp: its registers can be read, and unwinding from them gives the frames; with its name and thread. -/
structure StackOf (get : GetRegs) (p : Proc) (maxframes : Int) (name : Nat → Option (List Char)) (is : List (Option Info)) (l : Lwp) : Prop where
  frames : ∃ user fp regs, get l.id 1 216 = .ok user ∧ 216 ≤ user.length ∧ get l.id 2 512 = .ok fp ∧ 512 ≤ fp.length ∧ Recorded user fp regs ∧ unwindThread p maxframes regs = (l.frames, .ok ())
  name : l.name = name l.id
  thread : ThreadOn is l.id l.info

/-- The registers of a thread in a core: the first note of type 2 (NT_FPREGSET) of it has the floating point registers. -/
def FpOf (t : ThreadNotes) (fp : List Byte) : Prop := ∃ n, t.others.find? (fun n => n.type = 2) = some n ∧ n.desc = fp ∧ 512 ≤ fp.length

/-- `stat` as the kernel writes it: a number, the name in parentheses, and more, in which there are none. -/
def StatFile (name : List Char) (text : List Char) : Prop :=
  ∃ pid more rest, text = pid ++ '(' :: (name ++ ')' :: (more ++ '\n' :: rest)) ∧ '(' ∉ pid ∧ '\n' ∉ pid ∧ '\n' ∉ name ∧ '\n' ∉ more ∧ ')' ∉ more

end Pstack.Spec
