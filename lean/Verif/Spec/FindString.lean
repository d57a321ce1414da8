import Verif.Model.FindString
import Verif.Spec.Args
/-
Where a string is in the memory of a segment.
-/
namespace Pstack.Spec
open Pstack.FindString Pstack.Reader

/-- The reader has these bytes for the segment, from its start to the end of what is in the file; no bytes can be read anywhere. -/
structure SegmentBytes (read : Nat → Nat → Res (List Byte)) (seg : Segment) (data : List Byte) : Prop where
  order : seg.start ≤ seg.fileEnd ∧ seg.fileEnd ≤ seg.stop ∧ seg.stop < 2 ^ 63
  length : data.length = seg.fileEnd - seg.start
  reads : ∀ off len, off + len ≤ data.length → read (seg.start + off) len = .ok ((data.drop off).take len)
  nothing : ∀ a, read a 0 = .ok []

/-- The string is at this place. -/
def OccursAt (pat data : List Byte) (i : Nat) : Prop := ∃ rest, data.drop i = pat ++ rest

/-- It is at no place. -/
def OccursNot (pat data : List Byte) : Prop := ∀ i, ¬OccursAt pat data i

/-- The text for addresses: a line for each. -/
def addressLines (l : List Nat) : List Byte := l.flatMap (fun a => asciiText "0x" ++ asciiText (String.ofList (Nat.toDigits 16 a)) ++ [10#8])

/-- The addresses of a list of places, all there are and in order. -/
def AllPlaces (pat data : List Byte) (start : Nat) (l : List Nat) : Prop :=
  ∃ is : List Nat, l = is.map (start + ·) ∧ is.Pairwise (· < ·) ∧ ∀ i, i ∈ is ↔ OccursAt pat data i

/-- The search ends, having written this. -/
def SearchEnds (read : Nat → Nat → Res (List Byte)) (seg : Segment) (pat out : List Byte) : Prop := ∃ n, run read seg pat n = .ended out

/-- What was written by a stage that is not the end, and has not failed. -/
def Stage.Going (out : List Byte) : Stage → Prop
  | .outer s => s.out = out
  | .inner s _ => s.out = out
  | .ended _ => False
  | .failed => False

/-- The search goes on for ever, and writes this address over and over. -/
def SearchRepeats (read : Nat → Nat → Res (List Byte)) (seg : Segment) (pat : List Byte) (a : Nat) : Prop :=
  ∀ n, ∃ m, n ≤ m + 1 ∧ Stage.Going (addressLines (List.replicate m a)) (run read seg pat n)

/-- The search goes on for ever. -/
def SearchForever (read : Nat → Nat → Res (List Byte)) (seg : Segment) (pat : List Byte) : Prop := ∀ n, ∃ out, Stage.Going out (run read seg pat n)

end Pstack.Spec
