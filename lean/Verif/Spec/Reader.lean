import Verif.Basic
/-
Specifications for the reader properties, independent of the model.
-/
namespace Pstack.Spec

/-- A partial memory: which byte, if any, is at each address. -/
abbrev Mem := Nat → Option Byte

/-- The bytes at `off, off+1, ...`, at most `count` of them, stopping at the first unmapped address. -/
def slice (m : Mem) : Nat → Nat → List Byte
  | _, 0 => []
  | off, n + 1 => match m off with
    | none => []
    | some b => b :: slice m (off + 1) n

/-- The memory that holds exactly the bytes of a list, from address 0. -/
def ofList (l : List Byte) : Mem := fun i => l[i]?

/-- The bytes of `m` from `off` up to the first NUL, the first hole, or the address `limit`. -/
def cstring (m : Mem) (limit : Nat) (off : Nat) : List Byte :=
  (slice m off (limit - off)).takeWhile (· ≠ 0#8)

/-- A source serves a memory: it returns all it can of what was asked, and may fail only where it has nothing. -/
def Serves (src : Nat → Nat → Option (List Byte)) (m : Mem) : Prop :=
  ∀ off count, match src off count with
    | some bs => bs = slice m off count
    | none => slice m off count = []

/-- Holes never begin and end inside a 256-byte block: in each block the mapped bytes come first. -/
def BlockPrefix (m : Mem) : Prop :=
  ∀ i j, i ≤ j → i / 256 = j / 256 → (m j).isSome → (m i).isSome

/-- Standard unsigned LEB128 encoding. -/
def encodeU (n : Nat) : List Byte :=
  if n < 128 then [BitVec.ofNat 8 n] else BitVec.ofNat 8 (n % 128 + 128) :: encodeU (n / 128)
termination_by n

/-- Standard signed LEB128 encoding. -/
def encodeS (z : Int) : List Byte :=
  if -64 ≤ z ∧ z < 64 then [BitVec.ofInt 8 (z % 128)]
  else BitVec.ofInt 8 (z % 128 + 128) :: encodeS (z / 128)
termination_by z.natAbs
decreasing_by omega

/-- A LEB128 number is a sequence of bytes of which all but the last have the top bit set. -/
def Terminated : List Byte → Prop
  | [] => False
  | [b] => b.toNat < 128
  | b :: rest => 128 ≤ b.toNat ∧ Terminated rest

/-- The number a LEB128 byte sequence stands for: 7-bit groups, least significant first. -/
def groupValue : List Byte → Nat
  | [] => 0
  | b :: rest => b.toNat % 128 + 128 * groupValue rest

/-- The signed number: two's complement in `7 * length` bits. -/
def groupValueS : List Byte → Int
  | [] => 0
  | [b] => if b.toNat % 128 < 64 then (b.toNat % 128 : Nat) else (b.toNat % 128 : Nat) - 128
  | b :: rest => (b.toNat % 128 : Nat) + 128 * groupValueS rest

end Pstack.Spec
