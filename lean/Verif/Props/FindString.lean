import Verif.Spec.FindString
/-
Property theorems C96: the search for a string in memory (Spec/FindString.lean).
-/
namespace Pstack.Props
open Pstack.Reader Pstack.Spec Pstack.FindString
open Pstack.Args (say)

theorem occurs_lt {pat l : List Byte} (hp : pat ≠ []) {i : Nat} (h : OccursAt pat l i) : i < l.length := by
  obtain ⟨rest, h⟩ := h
  by_cases hi : i < l.length
  · exact hi
  · rw [List.drop_eq_nil_of_le (by omega)] at h
    exact absurd (List.append_eq_nil_iff.1 h.symm).1 hp

theorem occurs_succ {pat : List Byte} {b : Byte} {l : List Byte} {i : Nat} : OccursAt pat (b :: l) (i + 1) ↔ OccursAt pat l i := by
  unfold OccursAt
  rw [List.drop_succ_cons]

theorem occurs_zero {pat l : List Byte} : OccursAt pat l 0 ↔ pat.isPrefixOf l = true := by
  unfold OccursAt
  rw [List.drop_zero, List.isPrefixOf_iff_prefix]
  constructor
  · rintro ⟨r, h⟩; exact ⟨r, h.symm⟩
  · rintro ⟨r, h⟩; exact ⟨r, h.symm⟩

/-- `std::search`: the first place, or the end. -/
theorem searchSeq_spec {pat : List Byte} (hp : pat ≠ []) : ∀ l : List Byte, (∀ i, i < searchSeq pat l → ¬OccursAt pat l i) ∧
    ((searchSeq pat l < l.length ∧ OccursAt pat l (searchSeq pat l)) ∨ (searchSeq pat l = l.length ∧ OccursNot pat l))
  | [] => by
      refine ⟨fun i hi => absurd hi (by simp [searchSeq]), .inr ⟨rfl, ?_⟩⟩
      intro i h
      have := occurs_lt hp h
      simp at this
  | b :: bs => by
      obtain ⟨h1, h2⟩ := searchSeq_spec hp bs
      rw [searchSeq]
      by_cases hb : pat.isPrefixOf (b :: bs) = true
      · rw [if_pos hb]
        exact ⟨fun i hi => absurd hi (by omega), .inl ⟨by simp, occurs_zero.2 hb⟩⟩
      · rw [if_neg hb]
        refine ⟨?_, ?_⟩
        · intro i hi h
          cases i with
          | zero => exact hb (occurs_zero.1 h)
          | succ i => exact h1 i (by omega) (occurs_succ.1 h)
        · rcases h2 with ⟨h2, h3⟩ | ⟨h2, h3⟩
          · exact .inl ⟨by simp; omega, occurs_succ.2 h3⟩
          · refine .inr ⟨by simp [h2], ?_⟩
            intro i h
            cases i with
            | zero => exact hb (occurs_zero.1 h)
            | succ i => exact h3 i (occurs_succ.1 h)

theorem found_unique {pat l : List Byte} (hp : pat ≠ []) {i : Nat} (h : OccursAt pat l i) (hf : ∀ j, j < i → ¬OccursAt pat l j) : searchSeq pat l = i := by
  obtain ⟨h1, h2⟩ := searchSeq_spec hp l
  rcases h2 with ⟨h2, h3⟩ | ⟨h2, h3⟩
  · by_cases a : i < searchSeq pat l
    · exact absurd h (h1 i a)
    · by_cases b : searchSeq pat l < i
      · exact absurd h3 (hf _ b)
      · omega
  · exact absurd h (h3 i)

theorem found_none {pat l : List Byte} (hp : pat ≠ []) (h : OccursNot pat l) : searchSeq pat l = l.length := by
  rcases (searchSeq_spec hp l).2 with ⟨_, h3⟩ | ⟨h2, _⟩
  · exact absurd h3 (h _)
  · exact h2

theorem occurs_take {pat l : List Byte} (hp : pat ≠ []) {n i : Nat} (h : OccursAt pat (l.take n) i) : OccursAt pat l i := by
  have hlt := occurs_lt hp h
  simp only [List.length_take] at hlt
  obtain ⟨rest, h⟩ := h
  refine ⟨rest ++ l.drop n, ?_⟩
  rw [← List.append_assoc, ← h]
  conv => lhs; rw [← List.take_append_drop n l]
  rw [List.drop_append_of_le_length (by simp; omega)]

theorem line_text (a : Nat) : foundLine a = addressLines [a] := by
  have e : say "\n" = [10#8] := by decide
  unfold foundLine addressLines
  rw [e]
  simp only [List.flatMap_cons, List.flatMap_nil, List.append_nil, List.append_assoc]
  rfl

theorem lines_more (m a : Nat) : addressLines (List.replicate m a) ++ addressLines [a] = addressLines (List.replicate (m + 1) a) := by
  unfold addressLines
  rw [← List.flatMap_append, List.replicate_succ']

variable {read : Nat → Nat → Res (List Byte)} {seg : Segment} {pat data : List Byte}

theorem bufSize_le (pat : List Byte) : 4096 ≤ bufSize pat ∧ pat.length * 4 ≤ bufSize pat := by
  unfold bufSize; omega

/-- The first chunk. -/
theorem first_step (hd : SegmentBytes read seg data) (hs : seg.start < seg.stop) :
    ∃ buf, buf.length = bufSize pat ∧ buf.take (min data.length (bufSize pat)) = data.take (bufSize pat) ∧
      run read seg pat 1 = .inner ⟨seg.start, min data.length (bufSize pat), buf, []⟩ (min data.length (bufSize pat)) := by
  have hw : (seg.fileEnd + W64 - seg.start) % W64 = data.length := by
    have h1 := hd.order
    rw [hd.length, W64_eq]
    have : seg.fileEnd + 2 ^ 64 - seg.start = seg.fileEnd - seg.start + 2 ^ 64 := by omega
    rw [this, Nat.add_mod_right]
    exact Nat.mod_eq_of_lt (by omega)
  have hr := hd.reads 0 (min data.length (bufSize pat)) (by omega)
  rw [Nat.add_zero, List.drop_zero] at hr
  have hl : (data.take (min data.length (bufSize pat))).length = min data.length (bufSize pat) := by
    rw [List.length_take]; omega
  refine ⟨data.take (min data.length (bufSize pat)) ++ List.replicate (bufSize pat - min data.length (bufSize pat)) 0#8, ?_, ?_, ?_⟩
  · rw [List.length_append, hl, List.length_replicate]; omega
  · rw [List.take_left' hl]
    by_cases h : data.length ≤ bufSize pat
    · rw [Nat.min_eq_left h, List.take_length, List.take_of_length_le h]
    · rw [Nat.min_eq_right (by omega)]
  · show step read seg pat (.outer _) = _
    unfold step
    simp only
    rw [if_pos hs, hw, List.length_replicate, Nat.sub_zero, hr]
    simp only
    rw [if_pos hl]
    unfold place
    rw [List.take_zero, List.nil_append, Nat.zero_add, hl, List.drop_replicate, Nat.zero_add]

/-- A place found is written again and again. -/
theorem repeats {buf : List Byte} {p k got : Nat} (h1 : run read seg pat 1 = .inner ⟨seg.start, p, buf, []⟩ got) (hk : searchSeq pat (buf.take p) = k) (hne : k ≠ buf.length) (h64 : seg.start + k < 2 ^ 64) :
    SearchRepeats read seg pat (seg.start + k) := by
  have key : ∀ n, run read seg pat (n + 1) = .inner ⟨seg.start, p, buf, addressLines (List.replicate n (seg.start + k))⟩ got := by
    intro n
    induction n with
    | zero => exact h1
    | succ n ih =>
      rw [run, ih]
      unfold step
      simp only
      rw [hk, if_neg hne, Nat.mod_eq_of_lt (by rw [W64_eq]; exact h64), line_text, lines_more]
  intro n
  cases n with
  | zero => exact ⟨0, by omega, rfl⟩
  | succ n => exact ⟨n, by omega, by rw [key]; rfl⟩

theorem repeats_forever {a : Nat} (h : SearchRepeats read seg pat a) : SearchForever read seg pat := by
  intro n
  obtain ⟨m, _, h⟩ := h n
  exact ⟨_, h⟩

theorem forever_not_ends (h : SearchForever read seg pat) (out : List Byte) : ¬SearchEnds read seg pat out := by
  rintro ⟨n, hn⟩
  obtain ⟨o, h⟩ := h n
  rw [hn] at h
  exact h

theorem moveTail_length {pat buf : List Byte} (hp : pat ≠ []) {pos : Nat} (h : buf.length = pos) : (moveTail pat buf pos).length = pos := by
  have := List.length_pos_iff.2 hp
  unfold moveTail
  split
  · rw [List.length_append, List.length_take, List.length_drop, List.length_drop]; omega
  · exact h

/-- A buffer that is full stays so, and nothing is read any more. -/
theorem stuck (hp : pat ≠ []) (hd : SegmentBytes read seg data) {n0 : Nat} {mp : Nat} (hmp : mp < seg.stop) {buf out : List Byte} (h0 : run read seg pat n0 = .outer ⟨mp, buf.length, buf, out⟩) :
    ∀ n, ∃ buf out, run read seg pat (n0 + n) = .outer ⟨mp, buf.length, buf, out⟩ ∨ run read seg pat (n0 + n) = .inner ⟨mp, buf.length, buf, out⟩ 0
  | 0 => ⟨buf, out, .inl h0⟩
  | n + 1 => by
      have h64 : mp < W64 := by
        have := hd.order
        rw [W64_eq]; omega
      obtain ⟨b, o, h | h⟩ := stuck hp hd hmp h0 n
      · refine ⟨b, o, .inr ?_⟩
        rw [← Nat.add_assoc, run, h]
        unfold step
        simp only
        rw [if_pos hmp, Nat.sub_self, Nat.min_zero, hd.nothing]
        simp [place]
      · rw [← Nat.add_assoc, run, h]
        unfold step
        simp only
        by_cases hf : searchSeq pat (b.take b.length) = b.length
        · rw [if_pos hf]
          refine ⟨moveTail pat b b.length, o, .inl ?_⟩
          rw [moveTail_length hp rfl]
          show Stage.outer ⟨mp % W64, _, _, _⟩ = _
          rw [Nat.mod_eq_of_lt h64]
        · rw [if_neg hf]
          exact ⟨b, _, .inr rfl⟩

theorem run_ended {n : Nat} {out : List Byte} (h : run read seg pat n = .ended out) : ∀ m, run read seg pat (n + m) = .ended out
  | 0 => h
  | m + 1 => by rw [← Nat.add_assoc, run, run_ended h m]; rfl

/-- The first chunk fills the buffer, and the string is not in it. -/
theorem second_step (hp : pat ≠ []) (hd : SegmentBytes read seg data) (hs : seg.start < seg.stop) (hn : bufSize pat ≤ data.length) (ho : OccursNot pat (data.take (bufSize pat))) :
    ∃ buf, buf.length = bufSize pat ∧ run read seg pat 2 = .outer ⟨seg.start + 2 * bufSize pat, buf.length, buf, []⟩ := by
  obtain ⟨buf, h1, h2, h3⟩ := first_step (pat := pat) hd hs
  rw [Nat.min_eq_right hn] at h2 h3
  have hk := found_none hp ho
  rw [List.length_take, Nat.min_eq_left hn] at hk
  refine ⟨moveTail pat buf (bufSize pat), moveTail_length hp h1, ?_⟩
  rw [run, h3]
  unfold step
  simp only
  rw [h2, hk, h1, if_pos rfl, moveTail_length hp h1]
  have h64 : seg.start + bufSize pat + bufSize pat < W64 := by
    have h4 := hd.order
    have h5 := hd.length
    rw [W64_eq]; omega
  rw [Nat.mod_eq_of_lt h64]
  congr 2
  omega

/-- C96. For every segment without the string that is long enough to fill the buffer but not longer than two buffers (or empty), the search ends and writes the places there are, none. -/
theorem C96_places_partial (hp : pat ≠ []) (hd : SegmentBytes read seg data) (ho : OccursNot pat data)
    (hl : seg.start = seg.stop ∨ (bufSize pat ≤ data.length ∧ seg.stop ≤ seg.start + 2 * bufSize pat)) :
    ∃ l, AllPlaces pat data seg.start l ∧ SearchEnds read seg pat (addressLines l) := by
  refine ⟨[], ⟨[], rfl, .nil, fun i => ⟨(fun h => nomatch h), fun h => absurd h (ho i)⟩⟩, ?_⟩
  rcases hl with hl | ⟨h1, h2⟩
  · refine ⟨1, ?_⟩
    show step read seg pat (.outer _) = _
    unfold step
    simp only
    rw [if_neg (by omega)]
    rfl
  · by_cases hs : seg.start < seg.stop
    · obtain ⟨buf, h3, h4⟩ := second_step hp hd hs h1 (fun i h => ho i (occurs_take hp h))
      refine ⟨3, ?_⟩
      rw [run, h4]
      unfold step
      simp only
      rw [if_neg (by omega)]
      rfl
    · refine ⟨1, ?_⟩
      show step read seg pat (.outer _) = _
      unfold step
      simp only
      rw [if_neg hs]
      rfl

/-- C96. If the string is in the first part of the segment, as much as the buffer takes, the first line is its first address there; C96 does not hold, for that line is written for ever. -/
theorem C96_not_once (hp : pat ≠ []) (hd : SegmentBytes read seg data) {i : Nat} (hi : OccursAt pat (data.take (bufSize pat)) i) (hf : ∀ j, j < i → ¬OccursAt pat data j) :
    SearchRepeats read seg pat (seg.start + i) := by
  have hlt := occurs_lt hp hi
  rw [List.length_take] at hlt
  have h4 := hd.order
  have h5 := hd.length
  have hs : seg.start < seg.stop := by omega
  obtain ⟨buf, h1, h2, h3⟩ := first_step (pat := pat) hd hs
  refine repeats h3 ?_ (by omega) (by omega)
  rw [h2]
  exact found_unique hp hi (fun j hj h => hf j hj (occurs_take hp h))

/-- C96 does not hold if the segment is shorter than the buffer and does not have the string: the address of its end is written for ever. -/
theorem C96_not_there (hp : pat ≠ []) (hd : SegmentBytes read seg data) (hs : seg.start < seg.stop) (hl : data.length < bufSize pat) (ho : OccursNot pat data) :
    SearchRepeats read seg pat seg.fileEnd := by
  obtain ⟨buf, h1, h2, h3⟩ := first_step (pat := pat) hd hs
  have e : seg.fileEnd = seg.start + data.length := by
    have h4 := hd.order
    have h5 := hd.length
    omega
  rw [e]
  have h4 := hd.order
  refine repeats h3 ?_ (by omega) (by omega)
  rw [h2, List.take_of_length_le (by omega)]
  exact found_none hp ho

/-- C96 does not hold if the segment is longer than two buffers: the search never ends. -/
theorem C96_not_long (hp : pat ≠ []) (hd : SegmentBytes read seg data) (hl : seg.start + 2 * bufSize pat < seg.stop) : SearchForever read seg pat := by
  have hs : seg.start < seg.stop := by omega
  have h4 := hd.order
  have h5 := hd.length
  obtain ⟨buf, h1, h2, h3⟩ := first_step (pat := pat) hd hs
  obtain ⟨k1, k2⟩ := searchSeq_spec hp (data.take (bufSize pat))
  by_cases hn : bufSize pat ≤ data.length
  · rcases k2 with ⟨a, b⟩ | ⟨a, b⟩
    · rw [List.length_take] at a
      refine repeats_forever (repeats h3 (by rw [h2]) (by omega) ?_)
      omega
    · obtain ⟨buf2, g1, g2⟩ := second_step hp hd hs hn b
      have key := stuck hp hd hl g2
      intro n
      match n with
      | 0 => exact ⟨[], rfl⟩
      | 1 => exact ⟨[], by rw [h3]; rfl⟩
      | n + 2 =>
        obtain ⟨b, o, h | h⟩ := key n
        · exact ⟨o, by rw [Nat.add_comm n 2, h]; rfl⟩
        · exact ⟨o, by rw [Nat.add_comm n 2, h]; rfl⟩
  · rcases k2 with ⟨a, _⟩ | ⟨a, _⟩
    · rw [List.length_take] at a
      exact repeats_forever (repeats h3 (by rw [h2]) (by omega) (by omega))
    · rw [List.length_take] at a
      exact repeats_forever (repeats h3 (by rw [h2]) (by omega) (by omega))

/-- C96 does not hold for what is after the first part of a segment of up to two buffers: the search ends, and writes nothing, wherever the string is there. -/
theorem C96_not_rest (hp : pat ≠ []) (hd : SegmentBytes read seg data) (hn : bufSize pat ≤ data.length) (ho : OccursNot pat (data.take (bufSize pat))) (hl : seg.stop ≤ seg.start + 2 * bufSize pat) :
    SearchEnds read seg pat [] := by
  have h4 := hd.order
  have h5 := hd.length
  have h6 := (bufSize_le pat).1
  obtain ⟨buf, h7, h8⟩ := second_step hp hd (by omega) hn ho
  refine ⟨3, ?_⟩
  rw [run, h8]
  unfold step
  simp only
  rw [if_neg (by omega)]

/-- C96: exactly when the search ends. -/
theorem C96_ends (hp : pat ≠ []) (hd : SegmentBytes read seg data) (hs : seg.start < seg.stop) :
    (∃ out, SearchEnds read seg pat out) ↔ bufSize pat ≤ data.length ∧ OccursNot pat (data.take (bufSize pat)) ∧ seg.stop ≤ seg.start + 2 * bufSize pat := by
  constructor
  · rintro ⟨out, ho⟩
    by_cases h1 : seg.start + 2 * bufSize pat < seg.stop
    · exact absurd ho (forever_not_ends (C96_not_long hp hd h1) out)
    · have h2 : OccursNot pat (data.take (bufSize pat)) := by
        obtain ⟨k1, k2⟩ := searchSeq_spec hp (data.take (bufSize pat))
        rcases k2 with ⟨a, b⟩ | ⟨_, b⟩
        · rw [List.length_take] at a
          have h4 := hd.order
          have h5 := hd.length
          obtain ⟨buf, g1, g2, g3⟩ := first_step (pat := pat) hd hs
          exact absurd ho (forever_not_ends (repeats_forever (repeats g3 (by rw [g2]) (by omega) (by omega))) out)
        · exact b
      refine ⟨?_, h2, by omega⟩
      by_cases h3 : bufSize pat ≤ data.length
      · exact h3
      · rw [List.take_of_length_le (by omega)] at h2
        exact absurd ho (forever_not_ends (repeats_forever (C96_not_there hp hd hs (by omega) h2)) out)
  · rintro ⟨h1, h2, h3⟩
    exact ⟨[], C96_not_rest hp hd h1 h2 h3⟩

/-! ### A segment of 6000 bytes -/

/-- Zeroes, then "ab" at 5000. -/
def strData : List Byte := List.replicate 5000 0#8 ++ [0x61#8, 0x62#8] ++ List.replicate 998 0#8
def strSeg : Segment := ⟨0x10000, 0x10000 + 6000, 0x10000 + 6000⟩
def strRead (data : List Byte) (a n : Nat) : Res (List Byte) := .ok ((data.drop (a - 0x10000)).take n)

theorem str_len : strData.length = 6000 := by
  unfold strData
  rw [List.length_append, List.length_append, List.length_replicate, List.length_replicate]
  rfl

theorem str_bytes : SegmentBytes (strRead strData) strSeg strData := by
  refine ⟨by decide, ?_, ?_, ?_⟩
  · rw [str_len]; rfl
  · intro off len _
    unfold strRead strSeg
    simp
  · intro a
    simp [strRead]

theorem str_zeroes (pat : List Byte) (b : Byte) (hb : b ≠ 0#8) (n : Nat) : OccursNot (b :: pat) (List.replicate n 0#8) := by
  rintro i ⟨rest, h⟩
  rw [List.drop_replicate] at h
  cases hk : n - i with
  | zero => rw [hk] at h; cases h
  | succ k =>
    rw [hk, List.replicate_succ] at h
    injection h with h _
    exact hb h.symm

/-- "ab" is there, but is not found. "c" is not, and is rightly not found. -/
theorem C96_example : OccursAt [0x61#8, 0x62#8] strData 5000 ∧ SearchEnds (strRead strData) strSeg [0x61#8, 0x62#8] [] ∧
    ∃ l, AllPlaces [0x63#8] strData 0x10000 l ∧ SearchEnds (strRead strData) strSeg [0x63#8] (addressLines l) := by
  refine ⟨⟨List.replicate 998 0#8, ?_⟩, ?_, ?_⟩
  · unfold strData
    rw [List.append_assoc, List.drop_left' (by rw [List.length_replicate])]
  · refine C96_not_rest (by decide) str_bytes (by rw [str_len]; decide) ?_ (by decide)
    have e : strData.take (bufSize [0x61#8, 0x62#8]) = List.replicate 4096 0#8 := by
      unfold strData bufSize
      rw [List.append_assoc, List.take_append_of_le_length (by rw [List.length_replicate]; decide), List.take_replicate]
      rfl
    rw [e]
    exact str_zeroes _ _ (by decide) _
  · refine C96_places_partial (by decide) str_bytes ?_ (.inr ⟨by rw [str_len]; decide, by decide⟩)
    rintro i ⟨rest, h⟩
    have hm : 0x63#8 ∈ strData.drop i := by rw [h]; simp
    have := List.mem_of_mem_drop hm
    unfold strData at this
    rw [List.mem_append, List.mem_append, List.mem_replicate, List.mem_replicate] at this
    rcases this with (⟨_, h⟩ | h) | ⟨_, h⟩
    · exact absurd h (by decide)
    · exact absurd h (by decide)
    · exact absurd h (by decide)

/-- A segment of two bytes, "ab": its address is written for ever. -/
theorem C96_once_example : SearchRepeats (strRead [0x61#8, 0x62#8]) ⟨0x10000, 0x10002, 0x10002⟩ [0x61#8, 0x62#8] 0x10000 ∧
    SearchRepeats (strRead [0x61#8, 0x62#8]) ⟨0x10000, 0x10002, 0x10002⟩ [0x63#8] 0x10002 := by
  have hd : SegmentBytes (strRead [0x61#8, 0x62#8]) ⟨0x10000, 0x10002, 0x10002⟩ [0x61#8, 0x62#8] := by
    refine ⟨by decide, rfl, ?_, ?_⟩
    · intro off len _
      unfold strRead
      simp
    · intro a
      simp [strRead]
  constructor
  · exact C96_not_once (i := 0) (by decide) hd ⟨[], rfl⟩ (fun j hj => absurd hj (by omega))
  · refine C96_not_there (by decide) hd (by decide) (by decide) ?_
    rintro i ⟨rest, h⟩
    have hm : 0x63#8 ∈ ([0x61#8, 0x62#8] : List Byte).drop i := by rw [h]; simp
    have := List.mem_of_mem_drop hm
    simp at this

end Pstack.Props
