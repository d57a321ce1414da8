import Verif.Model.Expr
import Verif.Spec.Expr
/-
When the evaluator's surroundings provide what the specification's machine has.
-/
namespace Pstack.Spec
open Pstack.Expr Pstack.Arch

/-- Registers, memory words, CFA and frame base of the machine are what the evaluator will find. -/
structure Provides (env : Env) (m : Machine) (reloc : BitVec 64) : Prop where
  reg : ∀ r v, m.reg r = some v → env.regs.getDwarf (r : Int) = .ok (.u64 v)
  word : ∀ a v, m.word a = some v → env.mem a.toNat 8 = .ok (leBytes 8 v.toNat)
  cfa : env.cfa = m.cfa
  frameBase : ∀ v, m.frameBase = some v → env.frameBase = .ok v
  reloc : m.reloc = reloc

end Pstack.Spec
