import Verif.Proof.PythonAll
/-
A small process that runs Python 3.8, with objects of most kinds, one thread and two frames.
-/
namespace Pstack.Python
open Pstack.Spec

instance (mem : Mem) (a w x : Nat) : Decidable (NumAt mem a w x) := by unfold NumAt; infer_instance
instance (mem : Mem) (a w : Nat) (z : Int) : Decidable (IntAt mem a w z) := by unfold IntAt; infer_instance
instance (mem : Mem) (a n : Nat) : Decidable (Present mem a n) :=
  decidable_of_iff (∀ i, i < n → (mem (a + i)).isSome = true) ⟨fun h i hi => Option.isSome_iff_exists.1 (h i hi), fun h i hi => Option.isSome_iff_exists.2 (h i hi)⟩
instance (mem : Mem) (a : Nat) (l : List Nat) : Decidable (PtrsAt mem a l) := by unfold PtrsAt; infer_instance
instance (mem : Mem) (a : Nat) (s : List Byte) : Decidable (CStrAt mem a s) :=
  decidable_of_iff (a ≠ 0 ∧ (∀ i (h : i < s.length), mem (a + i) = some s[i]) ∧ (∀ b ∈ s, b ≠ 0) ∧ mem (a + s.length) = some 0 ∧ a + s.length + 1 < 2 ^ 64)
    ⟨fun h => ⟨h.1, h.2.1, h.2.2.1, h.2.2.2.1, h.2.2.2.2⟩, fun h => ⟨h.notNull, h.bytes, h.noZero, h.zero, h.fits⟩⟩

/-- Numbers written to memory that is zero from 0x1000 to 0x3fff: address, size and value. -/
def memOf (l : List (Nat × Nat × Nat)) : Mem := fun a =>
  match l.find? fun e => e.1 ≤ a ∧ a < e.1 + e.2.1 with
  | some e => some (BitVec.ofNat 8 (e.2.2 / 256 ^ (a - e.1)))
  | none => if 0x1000 ≤ a ∧ a < 0x4000 then some 0 else none

/-- The layout of CPython 3.8. -/
def layout38 : Layout where
  typeSize := 408
  codeSize := 176
  threadSize := 264
  f_back := 24
  f_code := 32
  f_locals := 56
  f_lasti := 104
  f_localsplus := 360
  co_argcount := 16
  co_kwonlyargcount := 24
  co_nlocals := 28
  co_flags := 36
  co_firstlineno := 40
  co_varnames := 72
  co_freevars := 80
  co_cellvars := 88
  co_filename := 104
  co_name := 112
  co_lnotab := 120
  t_next := 8
  t_frame := 24
  t_id := 176

def samplePrinters (t : Nat) : Option Kind :=
  if t = 0x1000 then some .long else if t = 0x1200 then some .string else if t = 0x1400 then some .list else if t = 0x1600 then some .dict
  else if t = 0x1800 then some .tuple else if t = 0x1c00 then some .frame else none

def sampleCfg : Config where
  two := false
  lay := layout38
  printers := samplePrinters
  float := fun _ => []
  what := "no memory".toList
  maxdepth := 100
  doargs := false
  dolocals := false
  tidOffset := some 16

def sampleList : List (Nat × Nat × Nat) := [
  -- types: int, str, list, dict, tuple, NoneType, frame, and a class of the program
  (0x1020, 8, 24), (0x1028, 8, 4), (0x1220, 8, 80), (0x1420, 8, 40), (0x1620, 8, 48), (0x1820, 8, 24), (0x1828, 8, 8), (0x1a18, 8, 0x3e00), (0x1a20, 8, 16), (0x3e00, 8, 0x65707954656e6f4e), (0x1c20, 8, 368), (0x1c28, 8, 8), (0x1e18, 8, 0x3e10), (0x1e20, 8, 32), (0x1ea8, 8, 512), (0x1f20, 8, 16), (0x3e10, 3, 0x736c43),
  -- 7
  (0x2000, 8, 1), (0x2008, 8, 4096), (0x2010, 8, 1), (0x2018, 4, 7),
  -- -(2^40 + 5)
  (0x2040, 8, 1), (0x2048, 8, 4096), (0x2050, 8, 0xfffffffffffffffe), (0x2058, 4, 5), (0x205c, 4, 1024),
  -- the string "ab"
  (0x2080, 8, 1), (0x2088, 8, 0x1200), (0x2090, 8, 2), (0x20a0, 4, 228), (0x20b0, 2, 0x6261),
  -- a list: 7, the list itself, the dictionary
  (0x2100, 8, 2), (0x2108, 8, 0x1400), (0x2110, 8, 3), (0x2118, 8, 0x2140), (0x2140, 8, 0x2000), (0x2148, 8, 0x2100), (0x2150, 8, 0x2180),
  -- a dictionary: "ab" is a tuple, 7 is None; its keys, table and entries
  (0x2180, 8, 1), (0x2188, 8, 0x1600), (0x2190, 8, 2), (0x21a0, 8, 0x2200), (0x2208, 8, 8), (0x2228, 8, 0xffffffff01fe00ff), (0x2238, 8, 0x2080), (0x2240, 8, 0x2380), (0x2250, 8, 0x2000), (0x2258, 8, 0x2300),
  -- None
  (0x2300, 8, 1), (0x2308, 8, 0x1a00),
  -- an object of the class, whose attributes are the dictionary
  (0x2340, 8, 1), (0x2348, 8, 0x1e00), (0x2350, 8, 0x2180),
  -- a tuple of the second number
  (0x2380, 8, 1), (0x2388, 8, 0x1800), (0x2390, 8, 1), (0x2398, 8, 0x2040),
  -- two frames
  (0x2400, 8, 1), (0x2408, 8, 0x1c00), (0x2418, 8, 0x2600), (0x2420, 8, 0x2800), (0x2468, 4, 10), (0x2600, 8, 1), (0x2608, 8, 0x1c00), (0x2620, 8, 0x2800), (0x2668, 4, 4),
  -- their code, its file and line table: from 3 on line 20, from 9 on line 17; the first line is 12
  (0x2828, 4, 12), (0x2868, 8, 0x2900), (0x2870, 8, 0x2080), (0x2878, 8, 0x2980), (0x2900, 8, 1), (0x2908, 8, 0x1200), (0x2910, 8, 4), (0x2920, 4, 228), (0x2930, 4, 0x79702e66), (0x2990, 8, 4), (0x29a0, 4, 0xfd060803),
  -- a thread, its pthread, and the interpreter, whose modules are the dictionary
  (0x2a18, 8, 0x2400), (0x2ab0, 8, 0x2f00), (0x2f10, 4, 4242), (0x2c08, 8, 0x2a00), (0x2c10, 8, 0x2180),
  -- the pointer to the interpreter
  (0x2d00, 8, 0x2c00)]

def sampleMem : Mem := memOf sampleList

theorem memOf_present {l : List (Nat × Nat × Nat)} {a n : Nat} (h : 0x1000 ≤ a ∧ a + n ≤ 0x4000) : Present (memOf l) a n := by
  intro i hi
  unfold memOf
  split
  · exact ⟨_, rfl⟩
  · rw [if_pos (by omega)]; exact ⟨_, rfl⟩

theorem objAt_of {cfg : Config} {l : List (Nat × Nat × Nat)} {a t r : Nat} {ty : TypeObj} {size : Int}
    (h : (a ≠ 0 ∧ r ≠ 0 ∧ NumAt (memOf l) a 8 r ∧ NumAt (memOf l) (a + 8) 8 t) ∧ IntAt (memOf l) (a + 16) 8 size ∧ (ty.itemsize ≠ 0 → size.natAbs ≤ 65536) ∧ objBytes ty size < 2 ^ 63 ∧
      0x1000 ≤ a ∧ a + objBytes ty size ≤ 0x4000)
    (ht : (296 ≤ cfg.lay.typeSize ∧ 0x1000 ≤ t ∧ t + cfg.lay.typeSize ≤ 0x4000) ∧ NumAt (memOf l) (t + 24) 8 ty.name ∧ NumAt (memOf l) (t + 32) 8 ty.basicsize ∧ NumAt (memOf l) (t + 40) 8 ty.itemsize ∧
      NumAt (memOf l) (t + 168) 8 ty.flags ∧ IntAt (memOf l) (t + 288) 8 ty.dictoffset) : ObjAt cfg (memOf l) a t ty size :=
  ⟨h.1.1, ⟨r, h.1.2.1, h.1.2.2.1⟩, h.1.2.2.2, ⟨ht.1.1, memOf_present ht.1.2, ht.2.1, ht.2.2.1, ht.2.2.2.1, ht.2.2.2.2.1, ht.2.2.2.2.2⟩, h.2.1, h.2.2.1, h.2.2.2.1, memOf_present h.2.2.2.2⟩

theorem sample_seven : LongAt sampleCfg sampleMem 0x2000 7 := by
  refine ⟨⟨⟨0, 24, 4, 0, 0⟩, ⟨0x1000, ?_, rfl⟩, rfl, rfl⟩, ?_⟩
  · rw [show (if (7 : Int) < 0 then -((pyDigits (7 : Int).natAbs).length : Int) else (pyDigits (7 : Int).natAbs).length) = 1 by rw [pyDigits, pyDigits]; decide]
    exact objAt_of (r := 1) (by decide +kernel) (by decide +kernel)
  · rw [show pyDigits (7 : Int).natAbs = [7] by rw [pyDigits, pyDigits]; decide]
    decide +kernel

theorem sample_big : LongAt sampleCfg sampleMem 0x2040 (-(2 ^ 40 + 5)) := by
  have e : pyDigits (-(2 ^ 40 + 5) : Int).natAbs = [5, 1024] := by rw [pyDigits, pyDigits, pyDigits]; decide
  refine ⟨⟨⟨0, 24, 4, 0, 0⟩, ⟨0x1000, ?_, rfl⟩, rfl, rfl⟩, ?_⟩
  · rw [e]
    exact objAt_of (r := 1) (by decide +kernel) (by decide +kernel)
  · rw [e]
    decide +kernel

theorem sample_str : (∃ ty size, OfKind sampleCfg sampleMem 0x2080 .string ty size) ∧ StrAt sampleCfg sampleMem 0x2080 [0x61#8, 0x62#8] := by
  refine ⟨⟨⟨0, 80, 0, 0, 0⟩, 2, 0x1200, objAt_of (r := 1) (by decide +kernel) (by decide +kernel), rfl⟩, by decide, ?_⟩
  exact ⟨by decide +kernel, by decide +kernel, 0xe4, by decide +kernel, by decide, by decide, by decide⟩

theorem sample_list : ListAt sampleCfg sampleMem 0x2100 [0x2000, 0x2100, 0x2180] :=
  ⟨⟨0, 40, 0, 0, 0⟩, 0x2140, ⟨0x1400, objAt_of (r := 2) (by decide +kernel) (by decide +kernel), rfl⟩, rfl, by decide, by decide +kernel, by decide +kernel⟩

theorem sample_tuple : TupleAt sampleCfg sampleMem 0x2380 [0x2040] :=
  ⟨⟨0, 24, 8, 0, 0⟩, ⟨0x1800, objAt_of (r := 1) (by decide +kernel) (by decide +kernel), rfl⟩, by decide, by decide, by decide +kernel⟩

def sampleSlots : List Slot := [.empty, .entry 0, .dummy, .entry 1, .empty, .empty, .empty, .empty]
def sampleKey (n : Nat) : Nat := if n = 0 then 0x2080 else 0x2000
def sampleValue (n : Nat) : Nat := if n = 0 then 0x2380 else 0x2300

theorem sample_keys : KeysAt sampleMem 0x2200 sampleSlots sampleKey sampleValue where
  present := memOf_present (by decide)
  size := by decide +kernel
  table := by decide +kernel
  entries := by decide +kernel
  fits := by decide

theorem sample_dict : DictAt sampleCfg sampleMem 0x2180 [(0x2080, 0x2380), (0x2000, 0x2300)] :=
  ⟨⟨0, 48, 0, 0, 0⟩, 2, 2, 0x2200, 0, sampleSlots, sampleKey, sampleValue, ⟨0x1600, objAt_of (r := 1) (by decide +kernel) (by decide +kernel), rfl⟩, by decide, by decide +kernel, by decide, by decide +kernel,
    by decide +kernel, sample_keys, rfl⟩

theorem sample_none : NoneAt sampleCfg sampleMem 0x2300 :=
  ⟨0x1a00, ⟨0x3e00, 16, 0, 0, 0⟩, 0, objAt_of (r := 1) (by decide +kernel) (by decide +kernel), rfl, by decide +kernel⟩

theorem sample_instance : InstanceAt sampleCfg sampleMem 0x2340 [0x43#8, 0x6c#8, 0x73#8] (some 0x2180) :=
  ⟨0x1e00, ⟨0x3e10, 32, 0, 512, 16⟩, 0x2180, objAt_of (r := 1) (by decide +kernel) (by decide +kernel), rfl, by decide, by decide +kernel, by decide, by decide, by decide, by decide +kernel⟩

def sampleSteps : List LineStep := [⟨3, 8⟩, ⟨6, -3⟩]

theorem sample_lines : LinesAt sampleCfg sampleMem 0x2980 sampleSteps := by
  refine ⟨by decide, by decide +kernel, by decide +kernel, by decide +kernel⟩

theorem sample_file : StrAt sampleCfg sampleMem 0x2900 [0x66#8, 0x2e#8, 0x70#8, 0x79#8] :=
  ⟨by decide, by decide +kernel, by decide +kernel, 0xe4, by decide +kernel, by decide, by decide, by decide⟩

theorem sample_frame : FrameAt sampleCfg sampleMem 0x2400 [0x61#8, 0x62#8] [0x66#8, 0x2e#8, 0x70#8, 0x79#8] 17 0x2600 where
  obj := ⟨⟨0, 368, 8, 0, 0⟩, 0, ⟨0x1c00, objAt_of (r := 1) (by decide +kernel) (by decide +kernel), rfl⟩, by decide, by decide, by decide, by decide, by decide +kernel⟩
  back := by decide +kernel
  code := ⟨0x2800, sampleSteps, 10, 12, 0x2980, 0x2080, 0x2900, by decide, by decide +kernel, by decide +kernel, by decide +kernel, by decide, by decide, by decide, by decide, by decide +kernel,
    by decide +kernel, by decide +kernel, by decide +kernel, sample_lines, by simp [StepsOk, sampleSteps, sampleCfg], by decide, sample_str.2, sample_file⟩

theorem sample_caller : FrameAt sampleCfg sampleMem 0x2600 [0x61#8, 0x62#8] [0x66#8, 0x2e#8, 0x70#8, 0x79#8] 20 0 where
  obj := ⟨⟨0, 368, 8, 0, 0⟩, 0, ⟨0x1c00, objAt_of (r := 1) (by decide +kernel) (by decide +kernel), rfl⟩, by decide, by decide, by decide, by decide, by decide +kernel⟩
  back := by decide +kernel
  code := ⟨0x2800, sampleSteps, 4, 12, 0x2980, 0x2080, 0x2900, by decide, by decide +kernel, by decide +kernel, by decide +kernel, by decide, by decide, by decide, by decide, by decide +kernel,
    by decide +kernel, by decide +kernel, by decide +kernel, sample_lines, by simp [StepsOk, sampleSteps, sampleCfg], by decide, sample_str.2, sample_file⟩

def sampleThread : ThreadInfo where
  addr := 0x2a00
  title := "pthread: 0x2f00, lwp 4242".toList
  frames := [⟨0x2400, [0x61#8, 0x62#8], [0x66#8, 0x2e#8, 0x70#8, 0x79#8], 17⟩, ⟨0x2600, [0x61#8, 0x62#8], [0x66#8, 0x2e#8, 0x70#8, 0x79#8], 20⟩]

theorem sample_thread : ThreadAt sampleCfg sampleMem sampleThread 0 where
  notNull := by decide
  sizes := by decide
  present := memOf_present (by decide)
  id := ⟨0x2f00, by decide +kernel, Or.inr (Or.inr ⟨16, 4242, by decide, rfl, by decide, by decide +kernel, by decide +kernel⟩)⟩
  frame := ⟨0x2400, by decide +kernel, rfl, _, sample_frame, rfl, _, sample_caller, rfl⟩
  next := by decide +kernel

def sampleInterp : InterpInfo := ⟨0x2c00, [sampleThread], false⟩

theorem sample_interp : InterpAt sampleCfg sampleMem sampleInterp 0 where
  notNull := by decide
  head := ⟨0x2a00, 0x2180, by decide +kernel, ⟨0, ⟨rfl, 0, sample_thread, rfl⟩, Or.inl ⟨rfl, rfl, by decide⟩⟩, by decide⟩

/-! ### Arguments and variables -/

/-- The same with arguments in the outer frame, of a function `def ab(ab, *ab, ab)` (all its variables are called ab). -/
def argsMem : Mem := memOf ([(0x2810, 4, 1), (0x2818, 4, 1), (0x281c, 4, 3), (0x2824, 4, 4), (0x2848, 8, 0x3000), (0x2850, 8, 0x3100), (0x2858, 8, 0x3100), (0x3010, 8, 3), (0x3018, 8, 0x2080),
  (0x3020, 8, 0x2080), (0x3028, 8, 0x2080), (0x2768, 8, 0x2000), (0x2770, 8, 0x2000), (0x2778, 8, 0x2380), (0x2638, 8, 0x2300)] ++ sampleList)

def argsCfg : Config := { sampleCfg with doargs := true, dolocals := true }

def argsFrame : Frame where
  func := [0x61#8, 0x62#8]
  file := [0x66#8, 0x2e#8, 0x70#8, 0x79#8]
  line := 20
  args := ⟨[0x2000], [([0x61#8, 0x62#8], 0x2000)], some (0x2080, [0x2040]), none⟩
  vars := ⟨[(0x2080, 0x2000), (0x2080, 0x2000), (0x2080, 0x2380)], [], []⟩
  locals := 0x2300
  back := 0

theorem args_str : (∃ ty size, OfKind argsCfg argsMem 0x2080 .string ty size) ∧ StrAt argsCfg argsMem 0x2080 [0x61#8, 0x62#8] := by
  refine ⟨⟨⟨0, 80, 0, 0, 0⟩, 2, 0x1200, objAt_of (r := 1) (by decide +kernel) (by decide +kernel), rfl⟩, by decide, ?_⟩
  exact ⟨by decide +kernel, by decide +kernel, 0xe4, by decide +kernel, by decide, by decide, by decide⟩

theorem args_seven : LongAt argsCfg argsMem 0x2000 7 := by
  refine ⟨⟨⟨0, 24, 4, 0, 0⟩, ⟨0x1000, ?_, rfl⟩, rfl, rfl⟩, ?_⟩
  · rw [show (if (7 : Int) < 0 then -((pyDigits (7 : Int).natAbs).length : Int) else (pyDigits (7 : Int).natAbs).length) = 1 by rw [pyDigits, pyDigits]; decide]
    exact objAt_of (r := 1) (by decide +kernel) (by decide +kernel)
  · rw [show pyDigits (7 : Int).natAbs = [7] by rw [pyDigits, pyDigits]; decide]
    decide +kernel

theorem args_big : LongAt argsCfg argsMem 0x2040 (-(2 ^ 40 + 5)) := by
  have e : pyDigits (-(2 ^ 40 + 5) : Int).natAbs = [5, 1024] := by rw [pyDigits, pyDigits, pyDigits]; decide
  refine ⟨⟨⟨0, 24, 4, 0, 0⟩, ⟨0x1000, ?_, rfl⟩, rfl, rfl⟩, ?_⟩
  · rw [e]
    exact objAt_of (r := 1) (by decide +kernel) (by decide +kernel)
  · rw [e]
    decide +kernel

theorem args_tuple : TupleAt argsCfg argsMem 0x2380 [0x2040] :=
  ⟨⟨0, 24, 8, 0, 0⟩, ⟨0x1800, objAt_of (r := 1) (by decide +kernel) (by decide +kernel), rfl⟩, by decide, by decide, by decide +kernel⟩

theorem args_none : NoneAt argsCfg argsMem 0x2300 :=
  ⟨0x1a00, ⟨0x3e00, 16, 0, 0, 0⟩, 0, objAt_of (r := 1) (by decide +kernel) (by decide +kernel), rfl, by decide +kernel⟩

theorem args_lines : LinesAt argsCfg argsMem 0x2980 sampleSteps := ⟨by decide, by decide +kernel, by decide +kernel, by decide +kernel⟩

theorem args_file : StrAt argsCfg argsMem 0x2900 [0x66#8, 0x2e#8, 0x70#8, 0x79#8] :=
  ⟨by decide, by decide +kernel, by decide +kernel, 0xe4, by decide +kernel, by decide, by decide, by decide⟩

theorem args_code : ∀ c, NumAt argsMem (0x2600 + argsCfg.lay.f_code) 8 c → c = 0x2800 := by
  intro c hc
  have h : NumAt argsMem (0x2600 + argsCfg.lay.f_code) 8 0x2800 := by decide +kernel
  exact Res.ok.inj ((readPtr_at hc).symm.trans (readPtr_at h))

theorem args_frame : FullFrameAt argsCfg argsMem 0x2600 argsFrame where
  frame :=
    { obj := ⟨⟨0, 368, 8, 0, 0⟩, 0, ⟨0x1c00, objAt_of (r := 1) (by decide +kernel) (by decide +kernel), rfl⟩, by decide, by decide, by decide, by decide, by decide +kernel⟩
      back := by decide +kernel
      code := ⟨0x2800, sampleSteps, 4, 12, 0x2980, 0x2080, 0x2900, by decide, by decide +kernel, by decide +kernel, by decide +kernel, by decide, by decide, by decide, by decide, by decide +kernel,
        by decide +kernel, by decide +kernel, by decide +kernel, args_lines, by simp [StepsOk, sampleSteps, argsCfg, sampleCfg], by decide, args_str.2, args_file⟩ }
  locals := by decide +kernel
  args := fun _ c hc => by
    rw [args_code c hc]
    refine ⟨by decide, ⟨4, by decide +kernel, by decide, by decide⟩, by decide +kernel, by decide +kernel, by decide, by decide, by decide +kernel, 0x3000, by decide +kernel, by decide, ?_, ?_, ?_⟩
    · intro i hi
      have : i = 0 := by simp only [argsFrame, List.length_singleton] at hi; omega
      subst this
      exact ⟨0x2080, by decide +kernel, args_str.2, (by decide +kernel : NumAt argsMem (0x2600 + argsCfg.lay.f_localsplus + 8 * 1) 8 0x2000)⟩
    · intro n l h
      cases h
      exact ⟨by decide +kernel, by decide, 0x2380, by decide +kernel, by decide, by decide +kernel, by decide +kernel, by decide +kernel⟩
    · intro s v h
      cases h
  vars := fun _ c hc => by
    rw [args_code c hc]
    exact ⟨by decide, by decide, by decide +kernel, by decide, ⟨0x3000, by decide +kernel, by decide, by decide +kernel, by decide +kernel, by decide +kernel⟩,
      ⟨0x3100, by decide +kernel, by decide, by decide +kernel, by decide +kernel, by decide +kernel⟩, ⟨0x3100, by decide +kernel, by decide, by decide +kernel, by decide +kernel, by decide +kernel⟩,
      by decide +kernel⟩

end Pstack.Python
