import Verif.Spec.Cfa
import Verif.Spec.Expr
import Verif.Model.Regs
/-
What a row of the unwind table says about the caller's registers (DWARF 5, 6.4.1 and 6.4.4), given the callee's registers
and memory. Registers are the general ones of x86_64, numbers 0 to 15, and 16, the return address.
-/
namespace Pstack.Spec
open Pstack.Arch

/-- The machine that the rules of a frame are evaluated on. -/
def machineOf (regs : Regs) (mem : Nat → Nat → Res (List Byte)) (cfa reloc : BitVec 64) : Machine where
  reg r := match regs.getDwarf (r : Int) with
    | .ok (.u64 v) => some v
    | _ => none
  word a := match mem a.toNat 8 with
    | .ok bs => if bs.length = 8 then some (BitVec.ofNat 64 (leNat bs)) else none
    | _ => none
  cfa := cfa
  frameBase := none
  reloc := reloc

/-- The CFA rule gives `v`. -/
def CfaRule.Value (m : Machine) : CfaRule → BitVec 64 → Prop
  | .undefined, _ => False
  | .regOff r n, v => ∃ x, m.reg r.toNat = some x ∧ v = x + BitVec.ofInt 64 n
  | .expr code, v => ∃ e : Expr, code = e.encode ∧ e.WF ∧ e.Exact m ∧ e.value m = some v

/-- The rule for register `r` gives `v`. A register without a rule, or with an undefined value, is left as the callee has
it. -/
def Rule.Value (m : Machine) (r : Nat) : Rule → BitVec 64 → Prop
  | .unspecified, v => m.reg r = some v
  | .undefined, v => m.reg r = some v
  | .same, v => m.reg r = some v
  | .offset n, v => m.word (m.cfa + BitVec.ofInt 64 n) = some v
  | .register s, v => m.reg s = some v
  | .expr code, v => ∃ e : Expr, code = e.encode ∧ e.WF ∧ e.Exact m ∧ ∃ a, e.value m = some a ∧ m.word a = some v
  | .valExpr code, v => ∃ e : Expr, code = e.encode ∧ e.WF ∧ e.Exact m ∧ e.value m = some v

/-- The rule says nothing about the register. -/
def Rule.silent : Rule → Bool
  | .unspecified => true
  | .undefined => true
  | _ => false

/-- The caller's register `r` (0 to 16) according to a row: the stack pointer is the CFA if no rule says otherwise. -/
def Row.Gives (row : Row) (m : Machine) (r : Nat) (v : BitVec 64) : Prop :=
  if r = 7 ∧ (row.rule (BitVec.ofNat 32 r)).silent then v = m.cfa else (row.rule (BitVec.ofNat 32 r)).Value m r v

/-- A row that speaks of general registers only (as those of x86_64 code do). -/
def Row.General (row : Row) : Prop := ∀ r : BitVec 32, 16 < r.toNat → row.rule r = .unspecified

/-- The caller's registers are what the row says: registers 0 to 15 by their rules, the program counter by the rule of the
return address column, and everything else unchanged. -/
structure Restores (row : Row) (m : Machine) (rar : Nat) (callee caller : Regs) : Prop where
  general : ∀ r : Nat, r < 16 → ∃ v, row.Gives m r v ∧ caller.getDwarf (r : Int) = .ok (.u64 v)
  pc : ∃ v, row.Gives m rar v ∧ caller.getDwarf 16 = .ok (.u64 v)
  others : ∀ r : Int, r < 0 ∨ 16 < r → caller.getDwarf r = callee.getDwarf r

end Pstack.Spec
