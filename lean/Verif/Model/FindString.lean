import Verif.Model.Args
import Verif.Model.Reader
/-
Model of the search for a string in a segment: `findString` of canal.cc.
-/
namespace Pstack.FindString
open Pstack.Reader Pstack.Args

/-- What is searched: `AddressRange`'s `start`, `end` and `fileEnd`. proc.h -/
structure Segment where
  start : Nat
  stop : Nat
  fileEnd : Nat

/-- `std::search`: the first position of `pat`, or the length. -/
def searchSeq (pat : List Byte) : List Byte → Nat
  | [] => 0
  | b :: bs => if pat.isPrefixOf (b :: bs) then 0 else searchSeq pat bs + 1

/-- The variables: `memPos`, `corestrPos`, `corestr`, and what was written. canal.cc:169-171 -/
structure Scan where
  memPos : Nat
  pos : Nat
  buf : List Byte
  out : List Byte

/-- Where the function is: at the condition of the outer loop, at the start of the inner loop's body (`read` is `in`), at its end, or in a failed assertion (or an exception of the reader). -/
inductive Stage where
  | outer (s : Scan)
  | inner (s : Scan) (read : Nat)
  | ended (out : List Byte)
  | failed

/-- `corestr.resize(std::max(4096, findstr.size() * 4))`. canal.cc:170 -/
def bufSize (pat : List Byte) : Nat := max 4096 (pat.length * 4)

/-- Bytes read into the buffer at a position. canal.cc:175 -/
def place (buf : List Byte) (pos : Nat) (bs : List Byte) : List Byte := buf.take pos ++ (bs ++ buf.drop (pos + bs.length))

/-- `memmove`. canal.cc:185-189 -/
def moveTail (pat buf : List Byte) (pos : Nat) : List Byte :=
  if pat.length ≤ pos then (buf.drop (pos - pat.length + 1)).take (pat.length - 1) ++ buf.drop (pat.length - 1) else buf

/-- The line for an address. canal.cc:182-183 -/
def foundLine (a : Nat) : List Byte := say "0x" ++ (say (String.ofList (Nat.toDigits 16 a)) ++ say "\n")

/-- One step: to the inner loop, one round of the inner loop (`found` is set anew in each), or out of it. `memPos` is advanced at the end of the body and again by the loop. canal.cc:171-191 -/
def step (read : Nat → Nat → Res (List Byte)) (seg : Segment) (pat : List Byte) : Stage → Stage
  | .outer s =>
      if s.memPos < seg.stop then
        let want := min ((seg.fileEnd + W64 - s.memPos) % W64) (s.buf.length - s.pos)
        match read s.memPos want with
        | .ok bs => if bs.length = want then .inner ⟨s.memPos, s.pos + want, place s.buf s.pos bs, s.out⟩ want else .failed
        | _ => .failed
      else .ended s.out
  | .inner s read =>
      let found := searchSeq pat (s.buf.take s.pos)
      if found = s.buf.length then .outer ⟨(s.memPos + read + read) % W64, s.pos, moveTail pat s.buf s.pos, s.out⟩
      else .inner { s with out := s.out ++ foundLine ((s.memPos + found) % W64) } read
  | .ended out => .ended out
  | .failed => .failed

/-- The function after a number of steps. canal.cc:165-193 -/
def run (read : Nat → Nat → Res (List Byte)) (seg : Segment) (pat : List Byte) : Nat → Stage
  | 0 => .outer ⟨seg.start, 0, List.replicate (bufSize pat) 0#8, []⟩
  | n + 1 => step read seg pat (run read seg pat n)

end Pstack.FindString
