import Verif.Spec.Reader
/-
Specification of a value made of pieces held in registers (DWARF 5, 2.6.1.2), on a little-endian machine.
-/
namespace Pstack.Spec

/-- A piece: the low `bytes` bytes of register `reg`. -/
structure Piece where
  reg : Nat
  bytes : Nat

/-- DW_OP_reg<n> DW_OP_piece <bytes>, for each piece. -/
def encodePieces : List Piece → List Byte
  | [] => []
  | p :: ps => BitVec.ofNat 8 (0x50 + p.reg) :: 0x93#8 :: (encodeU p.bytes ++ encodePieces ps)

/-- The composed value: "the first piece is the least significant" (lowest address). -/
def composite (reg : Nat → BitVec 64) : List Piece → Nat
  | [] => 0
  | p :: ps => (reg p.reg).toNat % 256 ^ p.bytes + 256 ^ p.bytes * composite reg ps

end Pstack.Spec
