import Verif.Props.Hdmp
/-
Examples and limits for C92.
-/
namespace Pstack.Props
open Pstack.Spec Pstack.Args Pstack.Hdmp

/-- Memory with these regions (start, size), in which there are these numbers (address, size, number), and zeros. -/
def hdmpMem (rs : List (Nat × Nat)) (ws : List (Nat × Nat × Nat)) : Python.Mem := fun a =>
  if rs.any (fun r => r.1 ≤ a && a < r.1 + r.2) then
    some (match ws.find? (fun w => w.1 ≤ a && a < w.1 + w.2.1) with
      | some w => BitVec.ofNat 8 (w.2.2 / 256 ^ (a - w.1))
      | none => 0#8)
  else none

theorem hdmp_present {rs : List (Nat × Nat)} {ws : List (Nat × Nat × Nat)} {a n : Nat} {r : Nat × Nat} (hr : r ∈ rs) (h1 : r.1 ≤ a) (h2 : a + n ≤ r.1 + r.2) : Present (hdmpMem rs ws) a n := by
  intro i hi
  have : rs.any (fun r => r.1 ≤ a + i && a + i < r.1 + r.2) = true := by
    rw [List.any_eq_true]
    refine ⟨r, hr, ?_⟩
    simp only [Bool.and_eq_true, decide_eq_true_eq]
    omega
  unfold hdmpMem
  rw [if_pos this]
  exact ⟨_, rfl⟩

/-- Two blocks allocated, the second of which was written beyond its end, and one released. Stacks have up to two frames. -/
def hdmpWords : List (Nat × Nat × Nat) :=
  [(0x1000, 8, 0x4000), (0x1010, 8, 0x4200), (0x1058, 4, 5), (0x105c, 4, 1), (0x1060, 4, 2), (0x1064, 4, 3), (0x1068, 4, 4), (0x1088, 8, 2), (0x10b0, 8, 0x7010),
   (0x4000, 8, 0x4100), (0x4018, 8, 3), (0x4020, 8, 0x5000), (0x4030, 8, 0x7010), (0x4038, 8, 0x7024), (0x5008, 4, 0xa5a5a5a5), (0x5013, 4, 0xa5a5a5a5),
   (0x4100, 8, 0), (0x4118, 8, 0), (0x4120, 8, 0x5040), (0x4130, 8, 0x9000), (0x5048, 4, 0xa5a5a5a5), (0x5050, 4, 0xa5a5a500),
   (0x4200, 8, 0), (0x4218, 8, 1), (0x4220, 8, 0x5080), (0x5088, 4, 0x5a5a5a5a), (0x5091, 4, 0x5a5a5a5a)]

def hdmpSample : Python.Mem := hdmpMem [(0x1000, 4272), (0x4000, 0x300), (0x5000, 0x100)] hdmpWords

/-- "main" is at 0x1010 of an object that is loaded at 0x6000. -/
def hdmpPlace (a : Nat) : Option Place := if 0x7010 ≤ a ∧ a < 0x7100 then some ⟨0x6000, some (0x1010, [0x6d#8, 0x61#8, 0x69#8, 0x6e#8]), [([0x61#8, 0x2e#8, 0x63#8], 7)]⟩ else none

def hdmpOne : HeapBlock := ⟨0x5010, 3, 0xa5a5a5a5, 0xa5a5a5a5, [0x7010, 0x7024]⟩
def hdmpTwo : HeapBlock := ⟨0x5050, 0, 0xa5a5a5a5, 0xa5a5a500, [0x9000]⟩
def hdmpFreed : HeapBlock := ⟨0x5090, 1, 0x5a5a5a5a, 0x5a5a5a5a, []⟩
def hdmpInfo : HeapInfo := ⟨5, 1, 2, 3, 4, 2, [0x7010], [hdmpOne, hdmpTwo], [hdmpFreed], []⟩

instance (mem : Python.Mem) (a w x : Nat) : Decidable (NumAt mem a w x) := by unfold NumAt; infer_instance

theorem hdmp_stack {mem : Python.Mem} {max a : Nat} {frames : List Nat} (h : (List.range frames.length).all (fun i => decide (frames.getD i 0 ≠ 0) && decide (NumAt mem (a + 8 * i) 8 (frames.getD i 0))) = true)
    (h1 : frames.length ≤ max) (h2 : frames.length < max → NumAt mem (a + 8 * frames.length) 8 0) : StackAt mem max a frames := by
  refine ⟨fun i f hi => ?_, h1, h2⟩
  have hlt := (List.getElem?_eq_some_iff.1 hi).1
  have := List.all_eq_true.1 h i (List.mem_range.2 hlt)
  have e : frames.getD i 0 = f := by rw [List.getD_eq_getElem?_getD, hi]; rfl
  rw [e, Bool.and_eq_true, decide_eq_true_eq, decide_eq_true_eq] at this
  exact this

theorem hdmp_desc {rs : List (Nat × Nat)} {ws : List (Nat × Nat × Nat)} {max a next : Nat} {b : HeapBlock} {r : Nat × Nat} (hr : r ∈ rs) (h1 : r.1 ≤ a) (h2 : a + (56 + 8 * max) ≤ r.1 + r.2)
    (h : NumAt (hdmpMem rs ws) a 8 next ∧ NumAt (hdmpMem rs ws) (a + 24) 8 b.size ∧ 16 ≤ b.ptr ∧ NumAt (hdmpMem rs ws) (a + 32) 8 (b.ptr - 16) ∧ b.ptr + b.size < 2 ^ 64 ∧
      NumAt (hdmpMem rs ws) (b.ptr - 8) 4 b.before ∧ NumAt (hdmpMem rs ws) (b.ptr + b.size) 4 b.behind) (hs : StackAt (hdmpMem rs ws) max (a + 48) b.stack) : DescAt (hdmpMem rs ws) max a next b :=
  ⟨hdmp_present hr h1 h2, h.1, h.2.1, ⟨h.2.2.1, h.2.2.2.1⟩, hs, h.2.2.2.2.1, h.2.2.2.2.2.1, h.2.2.2.2.2.2⟩

theorem hdmp_info : InfoAt hdmpSample 0x1000 hdmpInfo where
  notNull := by decide
  present := hdmp_present (r := (0x1000, 4272)) (by decide) (by decide) (by decide)
  mallocs := by decide +kernel
  frees := by decide +kernel
  callocs := by decide +kernel
  reallocs := by decide +kernel
  aligned := by decide +kernel
  maxframes := by decide +kernel
  crash := ⟨hdmp_stack (by decide +kernel) (by decide) (by decide +kernel), .inl (by decide)⟩
  heap := by
    refine ⟨0x4000, by decide +kernel, .cons (next := 0x4100) (by decide) (hdmp_desc (r := (0x4000, 0x300)) (by decide) (by decide) (by decide) (by decide +kernel)
      (hdmp_stack (by decide +kernel) (by decide) (by decide +kernel))) (.cons (next := 0) (by decide) (hdmp_desc (r := (0x4000, 0x300)) (by decide) (by decide) (by decide) (by decide +kernel)
      (hdmp_stack (by decide +kernel) (by decide) (by decide +kernel))) .nil)⟩
  freed := by
    refine ⟨0x4200, by decide +kernel, .cons (next := 0) (by decide) (hdmp_desc (r := (0x4000, 0x300)) (by decide) (by decide) (by decide) (by decide +kernel)
      (hdmp_stack (by decide +kernel) (by decide) (by decide +kernel))) .nil⟩
  big := ⟨0, by decide +kernel, .nil⟩

/-- C92. The hypotheses are met: a report with a block that was written beyond its end. -/
theorem C92_example : ∃ m, ∀ fuel, m ≤ fuel → dumpHeap hdmpSample (fun a => .ok (hdmpPlace a)) fuel (optsOf ['f', 'a']) 0x1000 = .ok (asciiText
    "Allocator usage statistics:\n\nCalls to malloc:               5\nCalls to free:                 1\nCalls to calloc:               2\nCalls to realloc:              3\nCalls to aligned_alloc et al:  4\n\nStack at termination:\n\n\t0x7010\tmain+0 in a.c:7\n\n\nCurrently allocated memory:\n\nptr=0x5010 size=3\n\t0x7010\tmain+0 in a.c:7\n\t0x7024\tmain+20 in a.c:7\n\nptr=0x5050 BADTAIL size=0\n\t0x9000\n\n\nRecently freed memory:\n\nptr=0x5090 size=1\n\n") := by
  have main0 : PlaceShown 0x7010 (hdmpPlace 0x7010) _ := .symbol (off := 0) rfl rfl (by decide)
  have main20 : PlaceShown 0x7024 (hdmpPlace 0x7023) _ := .symbol (off := 20) rfl rfl (by decide)
  have crash : StackShown hdmpPlace true [0x7010] _ := .cons main0 .nil
  have one : StackShown hdmpPlace true hdmpOne.stack _ := .cons main0 (.cons main20 .nil)
  have two : StackShown hdmpPlace true hdmpTwo.stack _ := .cons .unknown .nil
  have heap : BlocksShown hdmpPlace 0xa5a5a5a5 hdmpInfo.heap _ := .cons one (.cons two .nil)
  have freed : BlocksShown hdmpPlace 0x5a5a5a5a hdmpInfo.freed _ := .cons .nil .nil
  obtain ⟨m, hm⟩ := C92_report_partial (place := fun a => .ok (hdmpPlace a)) (fun _ => rfl) hdmp_info (o := optsOf ['f', 'a']) (.mk crash (.yes heap) (.yes freed) .no)
  refine ⟨m, fun fuel hf => ?_⟩
  rw [hm fuel hf]
  exact congrArg Res.ok (by decide +kernel)

/-- C92. A descriptor has room for `maxframes` frames, but one more is read: if there is no memory there, the block is not shown, nor are those after it. -/
theorem C92_not_last : ∃ (mem : Python.Mem) (a max next : Nat) (b : HeapBlock), a ≠ 0 ∧ Present mem a (48 + 8 * max) ∧ NumAt mem a 8 next ∧ NumAt mem (a + 24) 8 b.size ∧ NumAt mem (a + 32) 8 (b.ptr - 16) ∧
    StackAt mem max (a + 48) b.stack ∧ NumAt mem (b.ptr - 8) 4 b.before ∧ NumAt mem (b.ptr + b.size) 4 b.behind ∧
    ∀ place state fuel, printBlocks mem place max state (fuel + 1) a = .ok [] := by
  refine ⟨hdmpMem [(0x4000, 64), (0x5000, 0x100)] hdmpWords, 0x4000, 2, 0x4100, hdmpOne, by decide, hdmp_present (r := (0x4000, 64)) (by decide) (by decide) (by decide), ?_⟩
  refine ⟨by decide +kernel, by decide +kernel, by decide +kernel, hdmp_stack (by decide +kernel) (by decide) (by decide +kernel), by decide +kernel, by decide +kernel, ?_⟩
  intro place state fuel
  rw [printBlocks, if_neg (by decide)]
  have : Python.bytesAt (hdmpMem [(0x4000, 64), (0x5000, 0x100)] hdmpWords) 0x4000 (56 + 8 * 2) = none := by decide +kernel
  rw [this]

/-- C92. When a large block is released its descriptor is kept, but not its memory: the words around it cannot be read, and that is the end of the report. -/
theorem C92_not_big : ∃ (mem : Python.Mem) (a max : Nat) (b : HeapBlock), a ≠ 0 ∧ Present mem a (56 + 8 * max) ∧ NumAt mem a 8 0 ∧ NumAt mem (a + 24) 8 b.size ∧ NumAt mem (a + 32) 8 (b.ptr - 16) ∧
    StackAt mem max (a + 48) b.stack ∧ ∀ place state fuel, printBlocks mem place max state (fuel + 1) a = .exc := by
  refine ⟨hdmpMem [(0x4000, 0x300)] hdmpWords, 0x4200, 2, hdmpFreed, by decide, hdmp_present (r := (0x4000, 0x300)) (by decide) (by decide) (by decide), by decide +kernel, by decide +kernel,
    by decide +kernel, hdmp_stack (by decide +kernel) (by decide) (by decide +kernel), ?_⟩
  intro place state fuel
  rw [printBlocks, if_neg (by decide)]
  have hb : ∃ buf, Python.bytesAt (hdmpMem [(0x4000, 0x300)] hdmpWords) 0x4200 (56 + 8 * 2) = some buf :=
    Python.present_bytesAt (hdmp_present (r := (0x4000, 0x300)) (by decide) (by decide) (by decide))
  obtain ⟨buf, hb⟩ := hb
  rw [hb]
  simp only
  rw [Python.field_at (x := 0x5080) hb (by decide +kernel) (by decide), Res.bind_ok, Python.field_at (x := 1) hb (by decide +kernel) (by decide), Res.bind_ok,
    Python.field_at (off := 0) (x := 0) hb (by decide +kernel) (by decide), Res.bind_ok]
  have : Python.readObj (hdmpMem [(0x4000, 0x300)] hdmpWords) ((0x5080 + 8) % W64) 4 = .exc := by decide +kernel
  rw [this]
  rfl

/-- C92. The stack of the failure may have up to 512 frames, but no more of it is shown than of those of blocks: here one of three. -/
theorem C92_not_crash : ∃ (mem : Python.Mem) (a : Nat) (h : HeapInfo), StackAt mem 512 (a + 176) [0x7010, 0x7024, 0x7050] ∧ h.crash = [0x7010] ∧
    ∀ (place : Nat → Res (Option Place)) (pl : Nat → Option Place), (∀ (x : Nat), place x = .ok (pl x)) → ∀ o t, HeapReport pl o h t → ∃ m, ∀ fuel, m ≤ fuel → dumpHeap mem place fuel o a = .ok t := by
  refine ⟨hdmpMem [(0x1000, 4272)] [(0x1088, 8, 1), (0x10b0, 8, 0x7010), (0x10b8, 8, 0x7024), (0x10c0, 8, 0x7050)], 0x1000, ⟨0, 0, 0, 0, 0, 1, [0x7010], [], [], []⟩,
    hdmp_stack (by decide +kernel) (by decide) (by decide +kernel), rfl, ?_⟩
  intro place pl hp o t ht
  refine C92_report_partial hp ?_ ht
  exact ⟨by decide, hdmp_present (r := (0x1000, 4272)) (by decide) (by decide) (by decide), by decide +kernel, by decide +kernel, by decide +kernel, by decide +kernel, by decide +kernel, by decide +kernel,
    ⟨hdmp_stack (by decide +kernel) (by decide) (by decide +kernel), .inl (by decide)⟩, ⟨0, by decide +kernel, .nil⟩, ⟨0, by decide +kernel, .nil⟩, ⟨0, by decide +kernel, .nil⟩⟩

/-- C92. A list that is a circle has no end. -/
theorem C92_not_circle : ∃ (mem : Python.Mem) (a max : Nat) (b : HeapBlock), a ≠ 0 ∧ DescAt mem max a a b ∧
    ∀ (place : Nat → Res (Option Place)) (pl : Nat → Option Place), (∀ (x : Nat), place x = .ok (pl x)) → ∀ state fuel, printBlocks mem place max state fuel a = .abort := by
  have hd : DescAt (hdmpMem [(0x4000, 0x300), (0x5000, 0x100)] ((0x4200, 8, 0x4200) :: hdmpWords)) 2 0x4200 0x4200 hdmpFreed :=
    hdmp_desc (r := (0x4000, 0x300)) (by decide) (by decide) (by decide) (by decide +kernel) (hdmp_stack (by decide +kernel) (by decide) (by decide +kernel))
  refine ⟨_, 0x4200, 2, hdmpFreed, by decide, hd, ?_⟩
  intro place pl hp state fuel
  induction fuel with
  | zero => rfl
  | succ fuel ih =>
    rw [block_printed hp (by decide) hd .nil, ih]
    rfl

end Pstack.Props
