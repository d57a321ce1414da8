import Verif.Spec.Reader
import Verif.Spec.Dwarf
/-
Specification of DWARF arithmetic expressions (DWARF 5, section 2.5.1), independent of the model: a small expression
language, its postfix encoding and its value over 64-bit words.
-/
namespace Pstack.Spec

/-- What an expression may refer to. -/
structure Machine where
  reg : Nat → Option (BitVec 64)
  word : BitVec 64 → Option (BitVec 64)   -- the 8-byte word at an address, if readable
  cfa : BitVec 64
  frameBase : Option (BitVec 64)
  reloc : BitVec 64                       -- load address of the object the expression belongs to

inductive UnOp | abs | neg | not
  deriving DecidableEq, Repr

inductive BinOp | and | div | minus | mod | mul | or | plus | shl | shr | shra | xor | eq | ge | gt | le | lt | ne
  deriving DecidableEq, Repr

inductive Expr
  | lit (n : Nat)            -- DW_OP_lit0 .. lit31
  | const2s (n : Int)
  | const4u (n : Nat)
  | const4s (n : Int)
  | constu (n : Nat)
  | consts (n : Int)
  | addr (a : Nat)
  | breg (r : Nat) (off : Int)
  | fbreg (off : Int)
  | cfa
  | deref (e : Expr)
  | plusUconst (e : Expr) (n : Nat)
  | un (op : UnOp) (e : Expr)
  | bin (op : BinOp) (a b : Expr)
  deriving Repr

/-- Operands are in the range of their encoding. -/
def Expr.WF : Expr → Prop
  | lit n => n < 32
  | const2s n => -2 ^ 15 ≤ n ∧ n < 2 ^ 15
  | const4u n => n < 2 ^ 32
  | const4s n => -2 ^ 31 ≤ n ∧ n < 2 ^ 31
  | constu n => n < 2 ^ 64
  | consts n => -2 ^ 63 ≤ n ∧ n < 2 ^ 63
  | addr a => a < 2 ^ 64
  | breg r off => r < 32 ∧ -2 ^ 63 ≤ off ∧ off < 2 ^ 63
  | fbreg off => -2 ^ 63 ≤ off ∧ off < 2 ^ 63
  | cfa => True
  | deref e => e.WF
  | plusUconst e n => e.WF ∧ n < 2 ^ 64
  | un _ e => e.WF
  | bin _ a b => a.WF ∧ b.WF

def UnOp.code : UnOp → Byte
  | abs => 0x19#8 | neg => 0x1f#8 | not => 0x20#8

def BinOp.code : BinOp → Byte
  | and => 0x1a#8 | div => 0x1b#8 | minus => 0x1c#8 | mod => 0x1d#8 | mul => 0x1e#8 | or => 0x21#8 | plus => 0x22#8
  | shl => 0x24#8 | shr => 0x25#8 | shra => 0x26#8 | xor => 0x27#8
  | eq => 0x29#8 | ge => 0x2a#8 | gt => 0x2b#8 | le => 0x2c#8 | lt => 0x2d#8 | ne => 0x2e#8

/-- The postfix encoding. -/
def Expr.encode : Expr → List Byte
  | lit n => [BitVec.ofNat 8 (0x30 + n)]
  | const2s n => 0x0b#8 :: leBytes 2 (n % 2 ^ 16).toNat
  | const4u n => 0x0c#8 :: leBytes 4 n
  | const4s n => 0x0d#8 :: leBytes 4 (n % 2 ^ 32).toNat
  | constu n => 0x10#8 :: encodeU n
  | consts n => 0x11#8 :: encodeS n
  | addr a => 0x03#8 :: leBytes 8 a
  | breg r off => BitVec.ofNat 8 (0x70 + r) :: encodeS off
  | fbreg off => 0x91#8 :: encodeS off
  | cfa => [0x9c#8]
  | deref e => e.encode ++ [0x06#8]
  | plusUconst e n => e.encode ++ 0x23#8 :: encodeU n
  | un op e => e.encode ++ [op.code]
  | bin op a b => a.encode ++ (b.encode ++ [op.code])

/-- Truth values. -/
def truth (b : Bool) : BitVec 64 := if b then 1 else 0

/-- DWARF 5, 2.5.1.4: abs treats its operand as signed; not and neg as usual, modulo 2^64. -/
def UnOp.den : UnOp → BitVec 64 → BitVec 64
  | abs, a => BitVec.ofNat 64 a.toInt.natAbs
  | neg, a => - a
  | not, a => ~~~ a

/-- DWARF 5, 2.5.1.4 and 2.5.1.5, on the generic type: arithmetic is modulo 2^64; division is signed, and truncates;
the remainder is unsigned; comparisons are signed. Undefined: division by zero, shifts by 64 or more. -/
def BinOp.den : BinOp → BitVec 64 → BitVec 64 → Option (BitVec 64)
  | and, a, b => some (a &&& b)
  | or, a, b => some (a ||| b)
  | xor, a, b => some (a ^^^ b)
  | plus, a, b => some (a + b)
  | minus, a, b => some (a - b)
  | mul, a, b => some (a * b)
  | div, a, b => if b = 0 then none else some (BitVec.ofInt 64 (a.toInt.tdiv b.toInt))
  | mod, a, b => if b = 0 then none else some (BitVec.ofNat 64 (a.toNat % b.toNat))
  | shl, a, b => if b.toNat < 64 then some (BitVec.ofNat 64 (a.toNat * 2 ^ b.toNat)) else none
  | shr, a, b => if b.toNat < 64 then some (BitVec.ofNat 64 (a.toNat / 2 ^ b.toNat)) else none
  | shra, a, b => if b.toNat < 64 then some (BitVec.ofInt 64 (a.toInt / 2 ^ b.toNat)) else none
  | eq, a, b => some (truth (a = b))
  | ne, a, b => some (truth (a ≠ b))
  | ge, a, b => some (truth (decide (a.toInt ≥ b.toInt)))
  | gt, a, b => some (truth (decide (a.toInt > b.toInt)))
  | le, a, b => some (truth (decide (a.toInt ≤ b.toInt)))
  | lt, a, b => some (truth (decide (a.toInt < b.toInt)))

/-- The value of an expression. -/
def Expr.value (m : Machine) : Expr → Option (BitVec 64)
  | lit n => some (BitVec.ofNat 64 n)
  | const2s n => some (BitVec.ofInt 64 n)
  | const4u n => some (BitVec.ofNat 64 n)
  | const4s n => some (BitVec.ofInt 64 n)
  | constu n => some (BitVec.ofNat 64 n)
  | consts n => some (BitVec.ofInt 64 n)
  | addr a => some (BitVec.ofNat 64 a + m.reloc)
  | breg r off => (m.reg r).map (· + BitVec.ofInt 64 off)
  | fbreg off => m.frameBase.map (· + BitVec.ofInt 64 off)
  | cfa => some m.cfa
  | deref e => (e.value m).bind m.word
  | plusUconst e n => (e.value m).map (· + BitVec.ofNat 64 n)
  | un op e => (e.value m).map op.den
  | bin op a b => do op.den (← a.value m) (← b.value m)

end Pstack.Spec

namespace Pstack.Spec

/-- Operands for which `intmax_t` arithmetic does not overflow. -/
def UnOp.Exact : UnOp → BitVec 64 → Prop
  | not, _ => True
  | _, a => a.toInt ≠ -2 ^ 63

/-- Operands for which `intmax_t` arithmetic does not overflow, signed and unsigned remainder agree, and signed and
unsigned order agree. -/
def BinOp.Exact : BinOp → BitVec 64 → BitVec 64 → Prop
  | mul, a, b => -2 ^ 63 ≤ a.toInt * b.toInt ∧ a.toInt * b.toInt < 2 ^ 63
  | div, a, b => ¬ (a.toInt = -2 ^ 63 ∧ b.toInt = -1)
  | mod, a, b => 0 ≤ a.toInt ∧ 0 ≤ b.toInt
  | ge, a, b | gt, a, b | le, a, b | lt, a, b => 0 ≤ a.toInt ↔ 0 ≤ b.toInt
  | _, _, _ => True

/-- Every operator in the expression is applied to operands as above. -/
def Expr.Exact (m : Machine) : Expr → Prop
  | deref e => e.Exact m
  | plusUconst e _ => e.Exact m
  | un op e => e.Exact m ∧ ∀ a, e.value m = some a → op.Exact a
  | bin op a b => a.Exact m ∧ b.Exact m ∧ ∀ x y, a.value m = some x → b.value m = some y → op.Exact x y
  | _ => True

end Pstack.Spec
