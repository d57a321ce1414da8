import Verif.Model.Reader
/-
Model of the DWARF cursor: class DWARFReader, libpstack/dwarf.h:882-984 and dwarf_reader.cc.
The section behind the cursor is a byte list `d`; the cursor is its offset, threaded as state.
-/
namespace Pstack.Dwarf
open Pstack.Reader

/-- A computation reading from a DWARF cursor: takes the offset, returns a value and the new offset. -/
def Parse (α : Type) := Nat → Res (α × Nat)

instance : Monad Parse where
  pure a := fun off => .ok (a, off)
  bind p f := fun off => (p off) >>= fun (a, off') => f a off'

/-- `getOffset()`. dwarf.h:972. -/
def getOffset : Parse Nat := fun off => .ok (off, off)

/-- `skip(amount)`: `off += amount` modulo 2^64. dwarf.h:982. -/
def skip (n : Nat) : Parse Unit := fun off => .ok ((), (off + n) % W64)

/-- Throw. -/
def throwExc {α : Type} : Parse α := fun _ => .exc

/-- `assert(b)`. -/
def assert (b : Bool) : Parse Unit := fun off => if b then .ok ((), off) else .abort

/-- `setOffset(off)` on a cursor with the given limit. dwarf.h:974-977. -/
def setOffset (limit new : Nat) : Parse Unit := fun _ => if new ≤ limit then .ok ((), new) else .abort

/-- `io->readObj(off, q, n); off += n`: exactly `n` bytes or an exception. dwarf.h:897-900 (getBytes), reader.h:82-92. -/
def getBytes (d : List Byte) (n : Nat) : Parse (List Byte) := fun off =>
  if n = 0 then .ok ([], off)
  else if off + n ≤ d.length then .ok ((d.drop off).take n, off + n) else .exc

/-- `getu8()`. dwarf.h:913-918. -/
def getu8 (d : List Byte) : Parse Byte := do
  let q ← getBytes d 1
  match q with
  | [b] => pure b
  | _ => throwExc

/-- `getu16()`: `q[0] | q[1] << 8`. dwarf.h:907-912. -/
def getu16 (d : List Byte) : Parse (BitVec 16) := do
  let q ← getBytes d 2
  match q with
  | [q0, q1] => pure (q0.setWidth 16 ||| q1.setWidth 16 <<< 8)
  | _ => throwExc

/-- `getu32()`: `q[0] | q[1] << 8 | q[2] << 16 | uint32_t(q[3] << 24)`. dwarf.h:901-906. -/
def getu32 (d : List Byte) : Parse (BitVec 32) := do
  let q ← getBytes d 4
  match q with
  | [q0, q1, q2, q3] =>
      pure (q0.setWidth 32 ||| q1.setWidth 32 <<< 8 ||| q2.setWidth 32 <<< 16 ||| q3.setWidth 32 <<< 24)
  | _ => throwExc

/-- `gets8()`. dwarf.h:919-924. -/
def gets8 (d : List Byte) : Parse (BitVec 8) := getu8 d

/-- The accumulation loop `for i in 1..len: rc = rc << 8 | p[-i]`, over the bytes last to first.
dwarf.h:932-934, 944-946. -/
def accumulate (rc : BitVec 64) (bytesLastFirst : List Byte) : BitVec 64 :=
  bytesLastFirst.foldl (fun rc b => rc <<< 8 ||| b.setWidth 64) rc

/-- `getuint(len)`. dwarf.h:925-936. -/
def getuint (d : List Byte) (len : Nat) : Parse (BitVec 64) :=
  if len > 16 then throwExc
  else do
    let bytes ← getBytes d len
    pure (accumulate 0#64 bytes.reverse)

/-- `getint(len)`: starts from -1 if the top bit of the last byte is set. dwarf.h:937-949. -/
def getint (d : List Byte) (len : Nat) : Parse (BitVec 64) :=
  if len > 16 ∨ len < 1 then throwExc
  else do
    let bytes ← getBytes d len
    let rc := if bytes.getLastD 0#8 &&& 0x80#8 ≠ 0#8 then BitVec.allOnes 64 else 0#64
    pure (accumulate rc bytes.reverse)

/-- `getuleb128()`. dwarf.h:951-955. -/
def getuleb128 (d : List Byte) : Parse (BitVec 64) := fun off =>
  match readULEB128 (d.drop off) with
  | .ok (v, n) => .ok (v, (off + n) % W64)
  | .exc => .exc
  | .ub => .ub
  | .abort => .abort

/-- `getsleb128()`. dwarf.h:956-960. -/
def getsleb128 (d : List Byte) : Parse (BitVec 64) := fun off =>
  match readSLEB128 (d.drop off) with
  | .ok (v, n) => .ok (v, (off + n) % W64)
  | .exc => .exc
  | .ub => .ub
  | .abort => .abort

/-- `getstring()`: `io->readString(off)`, then past the terminator. The section is a range of a mapped file: a string that is not
terminated within it runs on into whatever follows, which is modelled as undefined. dwarf.h:967-971, reader.cc:83-86. -/
def getstring (d : List Byte) : Parse (List Byte) := fun off =>
  match memString d off with
  | .ok s => .ok (s, (off + s.length + 1) % W64)
  | .exc => .exc
  | .ub => .ub
  | .abort => .abort

/-- `getlength()`: the DWARF initial length and the size of offsets it implies. dwarf_reader.cc:73-83. -/
def getlength (d : List Byte) : Parse (Nat × Nat) := do
  let length ← getu32 d
  if length.toNat = 0xffffffff then
    let l ← getuint d 8
    pure (l.toNat, 8)
  else if length.toNat ≥ 0xfffffff0 then pure (0, 0)
  else pure (length.toNat, 4)

end Pstack.Dwarf
