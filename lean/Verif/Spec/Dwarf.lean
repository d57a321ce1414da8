import Verif.Basic
/-
Specifications for DWARF encodings, independent of the model.
-/
namespace Pstack.Spec

/-- Little-endian value of a byte sequence. -/
def leNat : List Byte → Nat
  | [] => 0
  | b :: rest => b.toNat + 256 * leNat rest

/-- Little-endian encoding of `v` in `n` bytes (modulo `256^n`). -/
def leBytes : Nat → Nat → List Byte
  | 0, _ => []
  | n + 1, v => BitVec.ofNat 8 (v % 256) :: leBytes n (v / 256)

/-- Two's complement value of a byte sequence. -/
def leInt (bs : List Byte) : Int :=
  if leNat bs < 2 ^ (8 * bs.length - 1) then leNat bs else (leNat bs : Int) - 2 ^ (8 * bs.length)

end Pstack.Spec
