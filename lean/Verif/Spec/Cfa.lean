import Verif.Spec.Cfi
/-
Call frame programs: instructions, their encoding, and the unwind table (rows) they denote. Independent of the
interpreter.
-/
namespace Pstack.Spec

/-- How to recover a register (DWARF 6.4.1). `offset n`: saved at CFA + n. -/
inductive Rule where
  | unspecified
  | undefined
  | same
  | offset (n : Int)
  | register (r : Nat)
  | expr (code : List Byte)
  | valExpr (code : List Byte)

/-- How to compute the CFA. -/
inductive CfaRule where
  | undefined
  | regOff (r : BitVec 32) (n : Int)
  | expr (code : List Byte)

/-- A row of the unwind table. -/
structure Row where
  cfa : CfaRule
  rule : BitVec 32 → Rule

/-- The row before any instruction. -/
def Row.init : Row := ⟨.undefined, fun _ => .unspecified⟩

def Row.set (row : Row) (r : BitVec 32) (v : Rule) : Row :=
  { row with rule := fun x => if x = r then v else row.rule x }

/-- Call frame instructions. -/
inductive Insn where
  | nop
  | setLoc (a : Nat)
  | advance (delta : Nat)      -- 6 bits
  | advance1 (delta : Nat)
  | advance2 (delta : Nat)
  | advance4 (delta : Nat)
  | offset (r : Nat) (n : Nat)                 -- 6-bit register
  | offsetExt (r : BitVec 32) (n : Nat)
  | offsetExtSf (r : BitVec 32) (n : Int)
  | restore (r : Nat)                          -- 6-bit register
  | restoreExt (r : BitVec 32)
  | undefined (r : BitVec 32)
  | sameValue (r : BitVec 32)
  | register (r1 : BitVec 32) (r2 : Nat)
  | remember
  | restoreState
  | defCfa (r : BitVec 32) (n : Nat)
  | defCfaSf (r : BitVec 32) (n : Int)
  | defCfaRegister (r : BitVec 32)
  | defCfaOffset (n : Nat)
  | defCfaOffsetSf (n : Int)
  | defCfaExpr (code : List Byte)
  | expr (r : BitVec 32) (code : List Byte)
  | valExpr (r : BitVec 32) (code : List Byte)
  | argsSize (n : Int)

/-- Operands are in range of their fields. -/
def Insn.WF : Insn → Prop
  | .setLoc a => a < 2 ^ 64
  | .advance d => d < 64
  | .advance1 d => d < 2 ^ 8
  | .advance2 d => d < 2 ^ 16
  | .advance4 d => d < 2 ^ 32
  | .offset r n => r < 64 ∧ n < 2 ^ 64
  | .offsetExt _ n => n < 2 ^ 64
  | .offsetExtSf _ n => -2 ^ 63 ≤ n ∧ n < 2 ^ 63
  | .restore r => r < 64
  | .register _ r2 => r2 < 2 ^ 64
  | .defCfa _ n => n < 2 ^ 64
  | .defCfaSf _ n => -2 ^ 63 ≤ n ∧ n < 2 ^ 63
  | .defCfaOffset n => n < 2 ^ 64
  | .defCfaOffsetSf n => -2 ^ 63 ≤ n ∧ n < 2 ^ 63
  | .argsSize n => -2 ^ 63 ≤ n ∧ n < 2 ^ 63
  | _ => True

/-- Encoding of an instruction (DWARF 7.24). -/
def Insn.encode : Insn → List Byte
  | .nop => [0x00#8]
  | .setLoc a => 0x01#8 :: leBytes 8 a
  | .advance d => [BitVec.ofNat 8 (0x40 + d)]
  | .advance1 d => 0x02#8 :: leBytes 1 d
  | .advance2 d => 0x03#8 :: leBytes 2 d
  | .advance4 d => 0x04#8 :: leBytes 4 d
  | .offset r n => BitVec.ofNat 8 (0x80 + r) :: encodeU n
  | .offsetExt r n => 0x05#8 :: (encodeU r.toNat ++ encodeU n)
  | .offsetExtSf r n => 0x11#8 :: (encodeU r.toNat ++ encodeS n)
  | .restore r => [BitVec.ofNat 8 (0xc0 + r)]
  | .restoreExt r => 0x06#8 :: encodeU r.toNat
  | .undefined r => 0x07#8 :: encodeU r.toNat
  | .sameValue r => 0x08#8 :: encodeU r.toNat
  | .register r1 r2 => 0x09#8 :: (encodeU r1.toNat ++ encodeU r2)
  | .remember => [0x0a#8]
  | .restoreState => [0x0b#8]
  | .defCfa r n => 0x0c#8 :: (encodeU r.toNat ++ encodeU n)
  | .defCfaSf r n => 0x12#8 :: (encodeU r.toNat ++ encodeS n)
  | .defCfaRegister r => 0x0d#8 :: encodeU r.toNat
  | .defCfaOffset n => 0x0e#8 :: encodeU n
  | .defCfaOffsetSf n => 0x13#8 :: encodeS n
  | .defCfaExpr c => 0x0f#8 :: (encodeU c.length ++ c)
  | .expr r c => 0x10#8 :: (encodeU r.toNat ++ (encodeU c.length ++ c))
  | .valExpr r c => 0x16#8 :: (encodeU r.toNat ++ (encodeU c.length ++ c))
  | .argsSize n => 0x2e#8 :: encodeS n

def encodeInsns (l : List Insn) : List Byte := (l.map Insn.encode).flatten

/-- State of the table construction: current location, current row, remembered rows. -/
structure TabState where
  loc : Nat
  row : Row
  stack : List Row

/-- Alignment factors of a common entry. -/
structure Factors where
  code : Nat
  data : Int

/-- Move the location forward by `delta * code` (must stay in 64 bits; the step itself in 32). -/
def TabState.advance (s : TabState) (k : Factors) (delta : Nat) : Option TabState :=
  if delta * k.code < 2 ^ 32 ∧ s.loc + delta * k.code < 2 ^ 64 then some { s with loc := s.loc + delta * k.code } else none

/-- One instruction; `none` if the program is not valid. `ini` is the row the common entry sets up. -/
def TabState.step (k : Factors) (ini : Row) (s : TabState) : Insn → Option TabState
  | .nop => some s
  | .setLoc a => if s.loc ≤ a then some { s with loc := a } else none
  | .advance d => s.advance k d
  | .advance1 d => s.advance k d
  | .advance2 d => s.advance k d
  | .advance4 d => s.advance k d
  | .offset r n => some { s with row := s.row.set (BitVec.ofNat 32 r) (.offset (n * k.data)) }
  | .offsetExt r n => some { s with row := s.row.set r (.offset (n * k.data)) }
  | .offsetExtSf r n => some { s with row := s.row.set r (.offset (n * k.data)) }
  | .restore r => some { s with row := s.row.set (BitVec.ofNat 32 r) (ini.rule (BitVec.ofNat 32 r)) }
  | .restoreExt r => some { s with row := s.row.set r (ini.rule r) }
  | .undefined r => some { s with row := s.row.set r .undefined }
  | .sameValue r => some { s with row := s.row.set r .same }
  | .register r1 r2 => some { s with row := s.row.set r1 (.register r2) }
  | .remember => some { s with stack := s.row :: s.stack }
  | .restoreState => match s.stack with
    | [] => none
    | row :: stack => some { s with row := row, stack := stack }
  | .defCfa r n => some { s with row := { s.row with cfa := .regOff r n } }
  | .defCfaSf r n => some { s with row := { s.row with cfa := .regOff r (n * k.data) } }
  | .defCfaRegister r => match s.row.cfa with
    | .regOff _ n => some { s with row := { s.row with cfa := .regOff r n } }
    | _ => none
  | .defCfaOffset n => match s.row.cfa with
    | .regOff r _ => some { s with row := { s.row with cfa := .regOff r n } }
    | _ => none
  | .defCfaOffsetSf n => match s.row.cfa with
    | .regOff r _ => some { s with row := { s.row with cfa := .regOff r (n * k.data) } }
    | _ => none
  | .defCfaExpr c => some { s with row := { s.row with cfa := .expr c } }
  | .expr r c => some { s with row := s.row.set r (.expr c) }
  | .valExpr r c => some { s with row := s.row.set r (.valExpr c) }
  | .argsSize _ => some s

/-- Instructions that end the current row. -/
def Insn.endsRow : Insn → Bool
  | .setLoc _ | .advance _ | .advance1 _ | .advance2 _ | .advance4 _ => true
  | _ => false

/-- The table a program denotes: a row for each location reached, in order; `none` if the program is not valid. -/
def rows (k : Factors) (ini : Row) : TabState → List Insn → Option (List (Nat × Row))
  | s, [] => some [(s.loc, s.row)]
  | s, i :: is =>
      match s.step k ini i with
      | none => none
      | some s' => match rows k ini s' is with
        | none => none
        | some t => some (if i.endsRow then (s.loc, s.row) :: t else t)

/-- The row for an address: the last one whose location is not above it. -/
def rowAt (t : List (Nat × Row)) (addr : Nat) : Option Row :=
  ((t.filter (fun r => decide (r.1 ≤ addr))).getLast?).map Prod.snd

/-- The row at the end of a program (used for the instructions of a common entry). -/
def finalRow (k : Factors) (ini : Row) : TabState → List Insn → Option Row
  | s, [] => some s.row
  | s, i :: is => match s.step k ini i with
    | none => none
    | some s' => finalRow k ini s' is

end Pstack.Spec
