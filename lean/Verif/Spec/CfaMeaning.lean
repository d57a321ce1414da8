import Verif.Model.Cfi
import Verif.Spec.Cfa
/-
When the interpreter's call frame holds a row of the unwind table.
-/
namespace Pstack.Spec
open Pstack.Dwarf

/-- The section has exactly these bytes at an offset, and the length is right. -/
def BytesAt (d : List Byte) (off len : BitVec 64) (code : List Byte) : Prop :=
  len.toNat = code.length ∧ (d.drop off.toNat).take code.length = code

/-- A stored rule is the table's rule. -/
def Denotes (d : List Byte) (u : RegUnwind) : Rule → Prop
  | .unspecified => u.type = .arch
  | .undefined => u.type = .undef
  | .same => u.type = .same
  | .offset n => u.type = .offset ∧ u.w0 = BitVec.ofInt 64 n
  | .register r => u.type = .reg ∧ u.w0 = BitVec.ofNat 64 r
  | .expr c => u.type = .expression ∧ BytesAt d u.w0 u.w1 c
  | .valExpr c => u.type = .valExpression ∧ BytesAt d u.w0 u.w1 c

def DenotesCfa (d : List Byte) (f : CallFrame) : CfaRule → Prop
  | .undefined => f.cfaValue.type = .undef
  | .regOff r n => f.cfaReg = r ∧ f.cfaValue.type = .offset ∧ f.cfaValue.w0 = BitVec.ofInt 64 n
  | .expr c => f.cfaValue.type = .expression ∧ BytesAt d f.cfaValue.w0 f.cfaValue.w1 c

/-- A call frame holds a row: the same CFA rule and the same rule for every register. -/
def Holds (d : List Byte) (f : CallFrame) (row : Row) : Prop :=
  DenotesCfa d f row.cfa ∧ ∀ r, Denotes d (f.get r) (row.rule r)

end Pstack.Spec
