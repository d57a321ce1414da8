import Verif.Model.Heap
/-
What a program does with a heap, and what it may expect.
-/
namespace Pstack.Spec
open Pstack.Heap

/-! ### Blocks taken and given back -/

/-- A block is taken (its address and size), or given back. -/
inductive HeapEv
  | take (p n : Nat)
  | give (p : Nat)

/-- The blocks in use, after these events (the last one first). -/
def blocks : List HeapEv → List (Nat × Nat)
  | [] => []
  | .take p n :: l => (p, n) :: blocks l
  | .give p :: l => (blocks l).filter (fun b => b.1 ≠ p)

/-- The sum of their sizes. -/
def usage (l : List HeapEv) : Nat := ((blocks l).map (·.2)).sum

/-- The most this ever was. -/
def peak : List HeapEv → Nat
  | [] => 0
  | e :: l => max (usage (e :: l)) (peak l)

/-- The blocks given back, the last one first. -/
def freed : List HeapEv → List Nat
  | [] => []
  | .take _ _ :: l => freed l
  | .give p :: l => p :: freed l

/-- The blocks given back that are kept for a while: the last `max`, or all. -/
def recent (max : Int) (l : List HeapEv) : List Nat := if max < 0 then freed l else (freed l).take max.toNat

/-! ### Programs -/

/-- The real allocator answers a request with memory that is not in use. -/
structure Legal (s : St) (ans : Answer) (n : Nat) : Prop where
  some : ans.base ≠ 0
  fits : ans.base + n < 2 ^ 64
  free : ∀ r ∈ s.real, r.1 + r.2 ≤ ans.base ∨ ans.base + n ≤ r.1

/-- The same for descriptors. -/
structure Unused (s : St) (d : Nat) : Prop where
  some : d ≠ 0
  fits : d < 2 ^ 64
  free : s.desc d = none

/-- The heap, and where the threads of a program are: in `malloc`, with a block (its descriptor and the size asked for) that is not yet in the books; in `free`, with a block
(descriptor and address) that still is; in `free`, with a block to be given back to the real allocator. -/
structure HeapWorld where
  s : St
  opening : List (Nat × Nat)
  closing : List (Nat × Nat)
  leaving : List Nat
  evs : List HeapEv

/-- No thread is in the heap. -/
def HeapWorld.Quiet (w : HeapWorld) : Prop := w.opening = [] ∧ w.closing = [] ∧ w.leaving = []

/-- The program has this block. -/
def HeapWorld.Has (w : HeapWorld) (p n : Nat) : Prop := (p, n) ∈ blocks w.evs ∧ ∀ d, (d, p) ∉ w.closing

/-- What a thread does next. -/
inductive HeapAct
  | mallocA (size : Nat) (ans : Answer) (fresh : Nat)
  | alignedA (align size : Nat) (ans : Answer) (fresh : Nat)
  | mallocB (d n : Nat)
  | freeA (p : Nat)
  | freeB (d p : Nat)
  | freeC (d : Nat)
  | write (a : Nat) (v : Byte)

/-- A well-behaved program may do this: it gives back blocks it has, and writes to blocks it has. -/
def HeapAct.Fair (w : HeapWorld) : HeapAct → Prop
  | mallocA size ans fresh => 16 + size + 4 < 2 ^ 64 ∧ Legal w.s ans (16 + size + 4) ∧ Unused w.s fresh
  | alignedA align size ans fresh => 0 < align ∧ internalSpace align + size + 4 < 2 ^ 64 ∧ Legal w.s ans (internalSpace align + size + 4) ∧ Unused w.s fresh
  | mallocB d n => (d, n) ∈ w.opening
  | freeA p => ∃ n, w.Has p n
  | freeB d p => (d, p) ∈ w.closing
  | freeC d => d ∈ w.leaving
  | write a _ => ∃ p n, w.Has p n ∧ p ≤ a ∧ a < p + n

/-- What comes of it. -/
def HeapAct.run (cfg : Config) (w : HeapWorld) : HeapAct → Res HeapWorld
  | mallocA size ans fresh => do
      let (d, s) ← Heap.mallocA size ans fresh w.s
      .ok { w with s := s, opening := (d, size) :: w.opening }
  | alignedA align size ans fresh => do
      let (d, s) ← Heap.alignedA align size ans fresh w.s
      .ok { w with s := s, opening := (d, size) :: w.opening }
  | mallocB d n => do
      let (p, s) ← Heap.mallocB cfg d w.s
      .ok { w with s := s, opening := w.opening.erase (d, n), evs := .take p n :: w.evs }
  | freeA p => do
      let (d, s) ← Heap.freeA cfg p w.s
      .ok { w with s := s, closing := (d, p) :: w.closing }
  | freeB d p => do
      let (e, s) ← Heap.freeB cfg d w.s
      .ok { w with s := s, closing := w.closing.erase (d, p), leaving := e.toList ++ w.leaving, evs := .give p :: w.evs }
  | freeC d => do
      let s ← Heap.freeC cfg d w.s
      .ok { w with s := s, leaving := w.leaving.erase d }
  | write a v => .ok { w with s := { w.s with mem := fun x => if x = a then v else w.s.mem x } }

/-- Where the program may be, whatever its threads do and in whatever order. -/
inductive HeapRun (cfg : Config) : HeapWorld → Prop
  | start (mem : Nat → Byte) : HeapRun cfg ⟨St.empty mem, [], [], [], []⟩
  | step {w w' : HeapWorld} {a : HeapAct} : HeapRun cfg w → a.Fair w → a.run cfg w = .ok w' → HeapRun cfg w'

/-! ### Programs with one thread -/

/-- A call of the heap, or a write. -/
inductive HeapCall
  | malloc (size : Nat) (ans : Answer) (fresh : Nat)
  | aligned (align size : Nat) (ans : Answer) (fresh : Nat)
  | calloc (num size : Nat) (ans : Answer) (fresh : Nat)
  | realloc (p size : Nat) (ans : Answer) (fresh : Nat)
  | free (p : Nat)
  | write (a : Nat) (v : Byte)

/-- The memory there is for a block with its guards, and for its descriptor. -/
def Room (s : St) (n : Nat) (ans : Answer) (fresh : Nat) : Prop := n < 2 ^ 64 ∧ Legal s ans n ∧ Unused s fresh

/-- A well-behaved program may do this. -/
def HeapCall.Fair (s : St) (evs : List HeapEv) : HeapCall → Prop
  | malloc size ans fresh => Room s (16 + size + 4) ans fresh
  | aligned align size ans fresh => 0 < align ∧ Room s (internalSpace align + size + 4) ans fresh
  | calloc num size ans fresh => Room s (16 + size * num + 4) ans fresh
  | realloc p size ans fresh => (p = 0 ∨ ∃ n, (p, n) ∈ blocks evs) ∧ Room s (16 + size + 4) ans fresh
  | free p => p = 0 ∨ ∃ n, (p, n) ∈ blocks evs
  | write a _ => ∃ p n, (p, n) ∈ blocks evs ∧ p ≤ a ∧ a < p + n

/-- What comes of it: the heap, the pointer that is returned, and which blocks were taken and given back. A block that `realloc` leaves where it is, is neither. -/
def HeapCall.run (cfg : Config) (s : St) (evs : List HeapEv) : HeapCall → Res (St × Nat × List HeapEv)
  | malloc size ans fresh => do
      let (p, s) ← Heap.malloc cfg size ans fresh s
      .ok (s, p, .take p size :: evs)
  | aligned align size ans fresh => do
      let (p, s) ← Heap.alignedAlloc cfg align size ans fresh s
      .ok (s, p, .take p size :: evs)
  | calloc num size ans fresh => do
      let (p, s) ← Heap.calloc cfg num size ans fresh s
      .ok (s, p, .take p (size * num) :: evs)
  | realloc p size ans fresh => do
      let (q, s) ← Heap.realloc cfg p size ans fresh s
      .ok (s, q, if p = 0 then .take q size :: evs else if q = p then evs else .give p :: .take q size :: evs)
  | free p => do
      let s ← Heap.free cfg p s
      .ok (s, 0, if p = 0 then evs else .give p :: evs)
  | write a v => .ok ({ s with mem := fun x => if x = a then v else s.mem x }, 0, evs)

/-- The heap after any history of calls and writes, and the blocks taken and given back. -/
inductive HeapHist (cfg : Config) : St → List HeapEv → Prop
  | start (mem : Nat → Byte) : HeapHist cfg (St.empty mem) []
  | step {s s' : St} {evs evs' : List HeapEv} {c : HeapCall} {q : Nat} : HeapHist cfg s evs → c.Fair s evs → c.run cfg s evs = .ok (s', q, evs') → HeapHist cfg s' evs'

end Pstack.Spec
