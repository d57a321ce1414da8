import Verif.Spec.Cfa
import Verif.Spec.Json
/-
What is shown of a call frame program: for each instruction an object with its DWARF name and its operands.
-/
namespace Pstack.Spec

/-- The DWARF name of an instruction. -/
def Insn.dwName : Insn → String
  | .nop => "DW_CFA_nop"
  | .setLoc _ => "DW_CFA_set_loc"
  | .advance _ => "DW_CFA_advance_loc"
  | .advance1 _ => "DW_CFA_advance_loc1"
  | .advance2 _ => "DW_CFA_advance_loc2"
  | .advance4 _ => "DW_CFA_advance_loc4"
  | .offset _ _ => "DW_CFA_offset"
  | .offsetExt _ _ => "DW_CFA_offset_extended"
  | .offsetExtSf _ _ => "DW_CFA_offset_extended_sf"
  | .restore _ => "DW_CFA_restore"
  | .restoreExt _ => "DW_CFA_restore_extended"
  | .undefined _ => "DW_CFA_undefined"
  | .sameValue _ => "DW_CFA_same_value"
  | .register _ _ => "DW_CFA_register"
  | .remember => "DW_CFA_remember_state"
  | .restoreState => "DW_CFA_restore_state"
  | .defCfa _ _ => "DW_CFA_def_cfa"
  | .defCfaSf _ _ => "DW_CFA_def_cfa_sf"
  | .defCfaRegister _ => "DW_CFA_def_cfa_register"
  | .defCfaOffset _ => "DW_CFA_def_cfa_offset"
  | .defCfaOffsetSf _ => "DW_CFA_def_cfa_offset_sf"
  | .defCfaExpr _ => "DW_CFA_def_cfa_expression"
  | .expr _ _ => "DW_CFA_expression"
  | .valExpr _ _ => "DW_CFA_val_expression"
  | .argsSize _ => "DW_CFA_GNU_args_size"

/-- The operands of an instruction that starts at `pos`, with their labels. Of an expression the length is shown, and for
`DW_CFA_val_expression` also where it starts. -/
def Insn.operands (pos : Nat) : Insn → List (String × Int)
  | .nop => []
  | .setLoc a => [("arg", a)]
  | .advance n => [("delta", n)]
  | .advance1 n => [("arg", n)]
  | .advance2 n => [("arg", n)]
  | .advance4 n => [("arg", n)]
  | .offset r n => [("register", r), ("offset", n)]
  | .offsetExt r n => [("reg", r.toNat), ("arg", n)]
  | .offsetExtSf r n => [("register", r.toNat), ("scale", n)]
  | .restore r => [("register", r)]
  | .restoreExt r => [("reg", r.toNat)]
  | .undefined r => [("reg", r.toNat)]
  | .sameValue r => [("reg", r.toNat)]
  | .register r1 r2 => [("reg1", r1.toNat), ("reg2", r2)]
  | .remember => []
  | .restoreState => []
  | .defCfa r n => [("reg", r.toNat), ("offset", n)]
  | .defCfaSf r n => [("register", r.toNat), ("offset", n)]
  | .defCfaRegister r => [("reg", r.toNat)]
  | .defCfaOffset n => [("offset", n)]
  | .defCfaOffsetSf n => [("offset", n)]
  | .defCfaExpr c => [("len", c.length)]
  | .expr r c => [("reg", r.toNat), ("length", c.length)]
  | .valExpr r c => [("register", r.toNat), ("length", c.length), ("offset", (pos + (Insn.valExpr r c).encode.length - c.length : Nat))]
  | .argsSize n => [("size", n)]

/-- The characters of a string. -/
def charCodes (s : String) : List Nat := s.toList.map Char.toNat

/-- The object shown. -/
def Insn.shown (pos : Nat) (i : Insn) : JVal :=
  .obj ((charCodes "type", .str (charCodes i.dwName)) :: (i.operands pos).map (fun f => (charCodes f.1, .int f.2)))

/-- The objects of a program that starts at `pos`. -/
def shownFrom : Nat → List Insn → List JVal
  | _, [] => []
  | pos, i :: is => i.shown pos :: shownFrom (pos + i.encode.length) is

/-- Operands that are shown as they are: no negative factored offsets or sizes, no steps of 2^31 or more. -/
def Insn.FairlyShown : Insn → Prop
  | .advance4 n => n < 2 ^ 31
  | .defCfaSf _ n => 0 ≤ n
  | .defCfaOffsetSf n => 0 ≤ n
  | .argsSize n => 0 ≤ n
  | _ => True

end Pstack.Spec
