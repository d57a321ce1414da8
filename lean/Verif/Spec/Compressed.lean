import Verif.Model.Compressed
import Verif.Spec.RdrContent
/-
Specification for compressed contents (C43): what is asked of liblzma and libz, and what a file contains.
-/
namespace Pstack.Spec
open Pstack.Reader Pstack.Compressed

/-- A block has these contents. -/
def BlockOf (z : Lzma) (up : Nat → Nat → Res (List Byte)) (b : LzBlock) (piece : List Byte) : Prop :=
  ∃ c h, up b.coff b.csize = .ok c ∧ c ≠ [] ∧ z.header c = some h ∧ z.decode h c b.usize = (true, piece) ∧ piece.length = b.usize

/-- The blocks are, one after the other from an offset on, those of some contents. -/
inductive Archive (z : Lzma) (up : Nat → Nat → Res (List Byte)) : Nat → List LzBlock → List Byte → Prop
  | nil (o : Nat) : Archive z up o [] []
  | cons {o : Nat} {b : LzBlock} {piece : List Byte} {bs : List LzBlock} {rest : List Byte} :
      b.uoff = o → piece ≠ [] → BlockOf z up b piece → Archive z up (o + piece.length) bs rest → Archive z up o (b :: bs) (piece ++ rest)

/-- The same for an index alone: some of the blocks may not be readable. -/
inductive Indexed : Nat → List LzBlock → Prop
  | nil (o : Nat) : Indexed o []
  | cons {o : Nat} {b : LzBlock} {bs : List LzBlock} : b.uoff = o → 0 < b.usize → Indexed (o + b.usize) bs → Indexed o (b :: bs)

/-- Histories of reads, with the cache they leave. -/
inductive LzHist (z : Lzma) (up : Nat → Nat → Res (List Byte)) : LzCache → Prop
  | start : LzHist z up (fun _ => [])
  | read {c : LzCache} (off n : Nat) : LzHist z up c → LzHist z up (z.read up c off n).1

/-- Histories of reads of which none failed. -/
inductive LzOk (z : Lzma) (up : Nat → Nat → Res (List Byte)) : LzCache → Prop
  | start : LzOk z up (fun _ => [])
  | read {c : LzCache} (off n : Nat) {bs : List Byte} : LzOk z up c → (z.read up c off n).2 = .ok bs → LzOk z up (z.read up c off n).1

/-- What zlib.h says of `inflate`, for a compressed stream `c` of contents `p` that stands at the beginning of `content`. After `i` bytes of input and `o` of output it is in a state for which `R` holds. -/
structure Inflates (z : Zlib) (c p content : List Byte) (R : z.State → Nat → Nat → Prop) : Prop where
  init : R z.init 0 0
  /-- A stream has a trailer, so it is not empty. -/
  ne : c ≠ []
  /-- "decompresses as much data as possible, and stops when the input buffer becomes empty or the output buffer becomes full". -/
  step : ∀ (s : z.State) (i o n k : Nat) (fin : Bool) (ret : ZRet) (used : Nat) (made : List Byte) (s' : z.State), R s i o → i < c.length → o ≤ p.length →
    z.inflate s ((content.drop i).take n) k fin = (ret, used, made, s') →
    used ≤ ((content.drop i).take n).length ∧ i + used ≤ c.length ∧ made = (p.drop o).take made.length ∧ made.length ≤ k ∧ R s' (i + used) (o + made.length) ∧
    (ret = .streamEnd ↔ i + used = c.length) ∧ (i + used = c.length → o + made.length = p.length) ∧
    (ret ≠ .streamEnd → used = ((content.drop i).take n).length ∨ (made.length = k ∧ o + made.length < p.length)) ∧
    (ret ≠ .streamEnd → (ret = .ok ↔ fin = false ∧ (0 < used ∨ 0 < made.length)))

/-- A reader that gives some of the bytes there are: at least one, if there are any. -/
def Gives (up : Nat → Nat → Res (List Byte)) (content : List Byte) : Prop :=
  ∀ off, off ≤ content.length → ∃ k, up off xferSize = .ok ((content.drop off).take k) ∧ k ≤ xferSize ∧ (off < content.length → 0 < k)

/-- A number of eight bytes, the lowest first. -/
def lowFirst (n : Nat) : List Byte := (List.range 8).map (fun i => BitVec.ofNat 8 (n / 256 ^ i))

/-- The highest first. -/
def highFirst (n : Nat) : List Byte := (lowFirst n).reverse

end Pstack.Spec
