import Verif.Spec.Hdmp
import Verif.Proof.Python
/-
Property theorems C92: what hdmp says of a process (Spec/Hdmp.lean).
-/
namespace Pstack.Props
open Pstack.Spec Pstack.Args Pstack.Hdmp

theorem lines_shown : ∀ (l : List (List Byte × Int)), sourcesText (say "in") l = linesText l := by
  have rest : ∀ (l : List (List Byte × Int)), sourcesText (say ",") l = l.flatMap (fun s => asciiText " , " ++ (s.1 ++ (asciiText ":" ++ decimalText s.2))) := by
    intro l
    induction l with
    | nil => rfl
    | cons s l ih =>
      rw [sourcesText, ih, List.flatMap_cons]
      rw [← List.append_assoc, ← List.append_assoc, show say " " ++ say "," ++ say " " = asciiText " , " from by decide]
      simp only [List.append_assoc]
      rfl
  intro l
  cases l with
  | nil => rfl
  | cons s l =>
    rw [sourcesText, rest, linesText]
    rw [← List.append_assoc, ← List.append_assoc, show say " " ++ say "in" ++ say " " = asciiText " in " from by decide]
    simp only [List.append_assoc]
    rfl

theorem wsub_eq {a b : Nat} (h : b ≤ a) (ha : a < 2 ^ 64) : wsub a b = a - b := by
  unfold wsub
  rw [show W64 = 2 ^ 64 from rfl]
  omega

theorem place_text {f : Nat} {p : Option Place} {t : List Byte} (h : PlaceShown f p t) : placeText f p = t := by
  cases h with
  | unknown => rfl
  | noSymbol h =>
    unfold placeText
    simp only
    rw [h, lines_shown]
    rfl
  | @symbol p v name off h1 h2 h3 =>
    unfold placeText symbolText
    simp only [h1]
    rw [lines_shown, wsub_eq (a := f) (by omega) h3, wsub_eq (by omega) (by omega), show f - p.reloc - v = off by omega]
    rfl

/-- The array that was read has the frames. -/
structure FramesIn (max : Nat) (arr : List Nat) (frames : List Nat) : Prop where
  get : ∀ (i f : Nat), frames[i]? = some f → f ≠ 0 ∧ arr[i]? = some f
  size : frames.length ≤ max
  stop : frames.length < max → arr[frames.length]? = some 0

theorem stack_printed {place : Nat → Res (Option Place)} {pl : Nat → Option Place} (hp : ∀ a, place a = .ok (pl a)) {max : Nat} {arr frames : List Nat} (h : FramesIn max arr frames) :
    ∀ (n i : Nat) {t : List Byte}, n + i = max → i ≤ frames.length → StackShown pl (i == 0) (frames.drop i) t → printStack place arr n i = .ok t := by
  intro n
  induction n with
  | zero =>
    intro i t hn hi hs
    have := h.size
    rw [List.drop_of_length_le (by omega)] at hs
    cases hs
    rfl
  | succ n ih =>
    intro i t hn hi hs
    rw [printStack]
    by_cases hlt : i < frames.length
    · have hg : frames[i]? = some frames[i] := List.getElem?_eq_getElem hlt
      rw [List.drop_eq_getElem_cons hlt] at hs
      generalize frames[i] = f at hs hg
      obtain ⟨hz, ha⟩ := h.get i f hg
      rw [ha]
      simp only
      rw [if_neg hz, hp, Res.bind_ok]
      cases hs with
      | cons hs1 hs2 =>
        rw [ih (i + 1) (by omega) (by omega) hs2, Res.bind_ok]
        have e : (if i = 0 then f else f - 1) = (if (i == 0) = true then f else f - 1) := by
          by_cases hi0 : i = 0
          · rw [if_pos hi0, if_pos (by rw [hi0]; rfl)]
          · rw [if_neg hi0, if_neg (by simpa using hi0)]
        rw [e, place_text hs1]
        rfl
    · have hie : i = frames.length := by omega
      rw [List.drop_of_length_le (by omega)] at hs
      cases hs
      rw [hie, h.stop (by omega)]
      simp only
      rw [if_pos trivial]
      rfl

theorem numbers_at : ∀ (n : Nat) (l : List Byte) (i : Nat), i < n → (Python.numbers 8 n l)[i]? = some (Python.num ((l.drop (8 * i)).take 8)) := by
  intro n
  induction n with
  | zero => intro l i h; omega
  | succ n ih =>
    intro l i h
    rw [Python.numbers]
    cases i with
    | zero => rfl
    | succ i =>
      rw [List.getElem?_cons_succ, ih _ i (by omega), List.drop_drop, show 8 + 8 * i = 8 * (i + 1) by omega]

theorem frames_read {mem : Python.Mem} {a n off max k : Nat} {buf : List Byte} {frames : List Nat} (hb : Python.bytesAt mem a n = some buf) (h : StackAt mem max (a + off) frames) (hk : off + 8 * k ≤ n)
    (hm : frames.length < k ∨ max ≤ k) : FramesIn max (Python.numbers 8 k (buf.drop off)) frames := by
  have key : ∀ i f, i < k → NumAt mem (a + off + 8 * i) 8 f → (Python.numbers 8 k (buf.drop off))[i]? = some f := by
    intro i f hi hf
    rw [numbers_at k _ i hi, List.drop_drop]
    rw [Nat.add_assoc] at hf
    rw [Python.num_at hb hf (by omega)]
  refine ⟨fun i f hi => ?_, h.size, fun hlt => ?_⟩
  · obtain ⟨h1, h2⟩ := h.at_ i f hi
    have := (List.getElem?_eq_some_iff.1 hi).1
    have := h.size
    exact ⟨h1, key i f (by omega) h2⟩
  · exact key _ _ (by omega) (h.stop hlt)

theorem num_read {mem : Python.Mem} {a w x : Nat} (hw : 0 < w) (h : NumAt mem a w x) : ∃ bs, Python.readObj mem a w = .ok bs ∧ Python.num bs = x := by
  obtain ⟨bs, h1, h2⟩ := Python.readObj_present (mem := mem) (a := a) (n := w) (fun i hi => ⟨_, h.2 i hi⟩)
  refine ⟨bs, h1, ?_⟩
  have := Python.num_at (off := 0) (w := w) h2 (by simpa using h) (by omega)
  rwa [List.drop_zero, List.take_of_length_le (by rw [Python.bytesAt_length h2]; exact Nat.le_refl _)] at this

theorem absent_bytes {mem : Python.Mem} {a n : Nat} (h : ¬Present mem a n) : Python.bytesAt mem a n = none := by
  cases hb : Python.bytesAt mem a n with
  | none => rfl
  | some l =>
    refine absurd (fun i hi => ?_) h
    have hl := Python.bytesAt_length hb
    exact ⟨_, Python.bytesAt_get hb i (by omega)⟩

theorem heading_eq {ptr size head tail state : Nat} (h : 16 ≤ ptr) (h64 : ptr < 2 ^ 64) {b : HeapBlock} (h1 : b.ptr = ptr) (h2 : b.size = size) (h3 : b.before = head) (h4 : b.behind = tail) :
    blockLine (ptr - 16) size head tail state = blockHeading state b := by
  subst h1 h2 h3 h4
  unfold blockLine blockHeading
  rw [show (b.ptr - 16 + 16) % W64 = b.ptr by rw [show b.ptr - 16 + 16 = b.ptr by omega]; exact Nat.mod_eq_of_lt h64]
  have e : ∀ (x : Nat) (t : List Byte), (if x ≠ state then t else []) = (if x = state then [] else t) := by
    intro x t
    by_cases hx : x = state
    · rw [if_pos hx, if_neg (by simp [hx])]
    · rw [if_neg hx, if_pos hx]
  rw [e, e]
  rfl

theorem block_printed {mem : Python.Mem} {place : Nat → Res (Option Place)} {pl : Nat → Option Place} (hp : ∀ a, place a = .ok (pl a)) {max state a next : Nat} {b : HeapBlock} (ha : a ≠ 0)
    (hd : DescAt mem max a next b) {s : List Byte} (h1 : StackShown pl true b.stack s) (fuel : Nat) :
    printBlocks mem place max state (fuel + 1) a = (do let rest ← printBlocks mem place max state fuel next; .ok (blockHeading state b ++ (s ++ rest))) := by
  obtain ⟨buf, hb⟩ := Python.present_bytesAt hd.present
  obtain ⟨hg1, hg2⟩ := hd.guard
  have hfits := hd.fits
  obtain ⟨w1, r1, n1⟩ := num_read (by decide) hd.before
  obtain ⟨w2, r2, n2⟩ := num_read (by decide) hd.behind
  have e1 : (b.ptr - 16 + 8) % W64 = b.ptr - 8 := by
    rw [show b.ptr - 16 + 8 = b.ptr - 8 by omega]; exact Nat.mod_eq_of_lt (by rw [show W64 = 2 ^ 64 from rfl]; omega)
  have e2 : (b.ptr - 16 + 16 + b.size) % W64 = b.ptr + b.size := by
    rw [show b.ptr - 16 + 16 + b.size = b.ptr + b.size by omega]; exact Nat.mod_eq_of_lt hfits
  rw [printBlocks, if_neg ha, hb]
  simp only
  rw [Python.field_at hb hg2 (by omega), Res.bind_ok, Python.field_at hb hd.size (by omega), Res.bind_ok, Python.field_at (off := 0) hb (by simpa using hd.next) (by omega), Res.bind_ok]
  rw [e1, r1, Res.bind_ok, e2, r2, Res.bind_ok]
  have hs := hd.stack.size
  rw [stack_printed hp (frames_read hb hd.stack (k := max + 1) (by omega) (by omega)) max 0 (by omega) (by omega) h1, Res.bind_ok]
  rw [n1, n2, heading_eq hg1 (by omega) rfl rfl rfl rfl]

/-- C92. Every block of a list is shown once, in order: its address and size, whether the words before and after it are wrong, and its stack; if the list breaks off, those before that.
Missing: descriptors at the end of memory (`C92_not_last`), blocks that are no longer in memory (`C92_not_big`), lists that are circles (`C92_not_circle`). -/
theorem C92_blocks_partial {mem : Python.Mem} {place : Nat → Res (Option Place)} {pl : Nat → Option Place} (hp : ∀ a, place a = .ok (pl a)) {max state a : Nat} {l : List HeapBlock}
    (h : BlocksFrom mem max a l) : ∀ {t : List Byte}, BlocksShown pl state l t → ∃ m, ∀ fuel, m ≤ fuel → printBlocks mem place max state fuel a = .ok t := by
  induction h with
  | nil =>
    intro t ht
    cases ht
    refine ⟨1, fun fuel hf => ?_⟩
    obtain ⟨fuel, rfl⟩ : ∃ k, fuel = k + 1 := ⟨fuel - 1, by omega⟩
    rw [printBlocks, if_pos rfl]
  | @broken a hb =>
    intro t ht
    cases ht
    refine ⟨1, fun fuel hf => ?_⟩
    obtain ⟨fuel, rfl⟩ : ∃ k, fuel = k + 1 := ⟨fuel - 1, by omega⟩
    rw [printBlocks, absent_bytes hb]
    by_cases ha : a = 0
    · rw [if_pos ha]
    · rw [if_neg ha]
  | @cons a next b l ha hd _ ih =>
    intro t ht
    cases ht with
    | @cons _ _ s rest h1 h2 =>
    obtain ⟨m, hm⟩ := ih h2
    refine ⟨m + 1, fun fuel hf => ?_⟩
    obtain ⟨fuel, rfl⟩ : ∃ k, fuel = k + 1 := ⟨fuel - 1, by omega⟩
    rw [block_printed hp ha hd h1, hm fuel (by omega), Res.bind_ok]

theorem part_shown {mem : Python.Mem} {place : Nat → Res (Option Place)} {pl : Nat → Option Place} (hp : ∀ a, place a = .ok (pl a)) {max state a : Nat} {l : List HeapBlock} (h : BlocksFrom mem max a l)
    {title : String} {wanted : Bool} {t : List Byte} (ht : PartShown pl state title l wanted t) : ∃ m, ∀ fuel, m ≤ fuel → section_ mem place max fuel wanted title a state = .ok t := by
  cases ht with
  | no => exact ⟨0, fun _ _ => rfl⟩
  | yes ht =>
    obtain ⟨m, hm⟩ := C92_blocks_partial hp h ht
    refine ⟨m, fun fuel hf => ?_⟩
    unfold section_
    rw [if_pos rfl, hm fuel hf, Res.bind_ok]
    rfl

/-- C92. The report is what it should be: the calls, the stack of the failure, and of the lists those that are wanted.
Missing: as for `C92_blocks_partial`, and stacks of failures that are longer than those of blocks (`C92_not_crash`). -/
theorem C92_report_partial {mem : Python.Mem} {place : Nat → Res (Option Place)} {pl : Nat → Option Place} (hp : ∀ a, place a = .ok (pl a)) {sym : Nat} {h : HeapInfo} (hi : InfoAt mem sym h) {o : Opts}
    {t : List Byte} (ht : HeapReport pl o h t) : ∃ m, ∀ fuel, m ≤ fuel → dumpHeap mem place fuel o sym = .ok t := by
  cases ht with
  | @mk c t1 t2 t3 hc p1 p2 p3 =>
  obtain ⟨a1, n1, l1⟩ := hi.heap
  obtain ⟨a2, n2, l2⟩ := hi.freed
  obtain ⟨a3, n3, l3⟩ := hi.big
  obtain ⟨m1, k1⟩ := part_shown hp l1 p1
  obtain ⟨m2, k2⟩ := part_shown hp l2 p2
  obtain ⟨m3, k3⟩ := part_shown hp l3 p3
  refine ⟨m1 + m2 + m3, fun fuel hf => ?_⟩
  obtain ⟨buf, r, hb⟩ := Python.readObj_present hi.present
  unfold dumpHeap
  rw [if_neg hi.notNull, r, Res.bind_ok]
  rw [Python.field_at hb hi.mallocs (by omega), Res.bind_ok, Python.field_at hb hi.frees (by omega), Res.bind_ok, Python.field_at hb hi.callocs (by omega), Res.bind_ok,
    Python.field_at hb hi.reallocs (by omega), Res.bind_ok, Python.field_at hb hi.aligned (by omega), Res.bind_ok, Python.field_at hb hi.maxframes (by omega), Res.bind_ok]
  rw [stack_printed hp (frames_read hb hi.crash.1 (k := 512) (by omega) (by have := hi.crash.2; omega)) h.maxframes 0 (by omega) (by omega) hc, Res.bind_ok]
  rw [Python.field_at (off := 0) hb (by simpa using n1) (by omega), Res.bind_ok, Python.field_at hb n2 (by omega), Res.bind_ok, Python.field_at hb n3 (by omega), Res.bind_ok]
  rw [show memAllocated = 0xa5a5a5a5 from rfl, show memFree = 0x5a5a5a5a from rfl, k1 fuel (by omega), Res.bind_ok, k2 fuel (by omega), Res.bind_ok, k3 fuel (by omega), Res.bind_ok]
  have join : ∀ (s u : String) (x : List Byte), say s ++ (say u ++ x) = asciiText (s ++ u) ++ x := by
    intro s u x
    unfold say asciiText
    rw [String.toList_append, List.map_append, List.append_assoc]
  simp only [join]
  rfl

/-- C92. With no options all lists are shown, and with options those that are asked for. -/
theorem C92_options (letters : List Char) (hl : ∀ c ∈ letters, c = 'e' ∨ c = 'a' ∨ c = 'f' ∨ c = 'b') :
    ((∀ c ∈ letters, c = 'e') → optsOf letters = ⟨true, true, true⟩) ∧
    ((∃ c ∈ letters, c ≠ 'e') → ((optsOf letters).allocated = true ↔ 'a' ∈ letters) ∧ ((optsOf letters).recentfree = true ↔ 'f' ∈ letters) ∧ ((optsOf letters).historicbig = true ↔ 'b' ∈ letters)) := by
  refine ⟨fun h => ?_, fun ⟨c, hc, hne⟩ => ?_⟩
  · have no : ∀ x : Char, x ≠ 'e' → letters.contains x = false := by
      intro x hx
      rw [← Bool.not_eq_true, List.contains_iff_mem]
      exact fun hm => hx (h x hm)
    unfold optsOf
    rw [no 'a' (by decide), no 'f' (by decide), no 'b' (by decide)]
    rfl
  · have e : optsOf letters = ⟨letters.contains 'a', letters.contains 'f', letters.contains 'b'⟩ := by
      unfold optsOf
      simp only
      rw [if_neg]
      intro h
      simp only [Opts.mk.injEq] at h
      rcases hl c hc with rfl | rfl | rfl | rfl
      · exact hne rfl
      · rw [List.contains_iff_mem.2 hc] at h; cases h.1
      · rw [List.contains_iff_mem.2 hc] at h; cases h.2.1
      · rw [List.contains_iff_mem.2 hc] at h; cases h.2.2
    rw [e]
    exact ⟨List.contains_iff_mem, List.contains_iff_mem, List.contains_iff_mem⟩

end Pstack.Props
