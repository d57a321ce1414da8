import Verif.Model.Canal
/-
C40, C41, C51: the memory scanner `canal`.
-/
namespace Pstack.Props
open Pstack.Canal

/-- `name` is `pattern` with each '*' replaced by some string, and every other character standing for itself. -/
def Fills : List Byte → List Byte → Prop
  | [], n => n = []
  | c :: p, n => if c = 0x2a then ∃ w m, n = w ++ m ∧ Fills p m else ∃ m, n = c :: m ∧ Fills p m

theorem star_iff (p : List Byte) (ih : ∀ n, globmatchR p n = true ↔ Fills p n) :
    ∀ n, star p n = true ↔ ∃ w m, n = w ++ m ∧ Fills p m
  | [] => by
    rw [star, ih]
    constructor
    · intro h; exact ⟨[], [], rfl, h⟩
    · rintro ⟨w, m, h, hf⟩
      have := List.append_eq_nil_iff.1 h.symm
      exact this.2 ▸ hf
  | d :: n => by
    rw [star]
    split
    · rename_i h
      simp only [true_iff]
      exact ⟨[], d :: n, rfl, (ih _).1 h⟩
    · rename_i h
      rw [star_iff p ih n]
      constructor
      · rintro ⟨w, m, rfl, hf⟩; exact ⟨d :: w, m, rfl, hf⟩
      · rintro ⟨w, m, hw, hf⟩
        cases w with
        | nil => exact absurd ((ih _).2 (hw ▸ hf)) h
        | cons x w =>
          injection hw with e1 e2
          exact ⟨w, m, e2, hf⟩

theorem globmatchR_iff : ∀ (p n : List Byte), globmatchR p n = true ↔ Fills p n
  | [], [] => by rw [globmatchR, Fills]; simp
  | [], d :: n => by rw [globmatchR, Fills]; simp
  | c :: p, n => by
    rw [Fills, globmatchR.eq_def]
    simp only []
    split
    · exact star_iff p (globmatchR_iff p) n
    · cases n with
      | nil => simp
      | cons d n =>
        simp only []
        split
        · rename_i h
          simp only [Bool.false_eq_true, false_iff]
          rintro ⟨m, hm, _⟩
          injection hm with e1 e2
          exact h e1
        · rename_i h
          rw [globmatchR_iff p n]
          simp only [Decidable.not_not] at h
          subst h
          constructor
          · intro hf; exact ⟨n, rfl, hf⟩
          · rintro ⟨m, hm, hf⟩
            injection hm with e1 e2
            exact e2 ▸ hf

theorem cstr_of (s : List Byte) (h : (0 : Byte) ∉ s) : cstr s = s := by
  unfold cstr
  induction s with
  | nil => rfl
  | cons c s ih =>
    simp at h
    rw [List.takeWhile_cons, if_pos (by simp; exact fun hh => h.1 hh.symm), ih (by simpa using h.2)]

/-- C40. For every pattern and name (without NULs, as all names from string tables are). -/
theorem C40_glob (pattern name : List Byte) (hp : (0 : Byte) ∉ pattern) (hn : (0 : Byte) ∉ name) :
    globmatch pattern name = true ↔ Fills pattern name := by
  unfold globmatch
  rw [cstr_of _ hp, cstr_of _ hn, globmatchR_iff]

/-- `_ZTV*` matches `_ZTV3Foo` and not `_ZTS3Foo`. -/
theorem C40_example : Fills [0x5f, 0x5a, 0x54, 0x56, 0x2a] [0x5f, 0x5a, 0x54, 0x56, 0x33, 0x46] ∧
    ¬ Fills [0x5f, 0x5a, 0x54, 0x56, 0x2a] [0x5f, 0x5a, 0x54, 0x53, 0x33, 0x46] := by
  constructor <;> rw [← C40_glob _ _ (by decide) (by decide)]
  · simp [globmatch, cstr, globmatchR, star]
  · simp [globmatch, cstr, globmatchR, star]

/-! ### Attribution of addresses -/

/-- The address range of a symbol in the process, as numbers. -/
def lo (s : Sym) : Nat := s.value.toNat + s.objbase.toNat
def hi (s : Sym) : Nat := lo s + s.size.toNat
/-- The range does not run past the top of the address space. -/
def Fits (s : Sym) : Prop := hi s < 2 ^ 64
def Covers (s : Sym) (a : Nat) : Prop := lo s ≤ a ∧ a < hi s

theorem memaddr_lo (s : Sym) (h : Fits s) : s.memaddr.toNat = lo s := by
  unfold Fits hi at h
  unfold Sym.memaddr
  rw [BitVec.toNat_add, Nat.mod_eq_of_lt (by unfold lo at h; omega)]; rfl

theorem memaddr_hi (s : Sym) (h : Fits s) : (s.memaddr + s.size).toNat = hi s := by
  have := memaddr_lo s h
  unfold Fits hi at h
  rw [BitVec.toNat_add, this, Nat.mod_eq_of_lt h]; rfl

/-- What every store looks like that was filled from symbols `syms`. -/
structure StoreOf (m : OMap Sym) (syms : List Sym) : Prop where
  sorted : OMap.Sorted m
  keyed : ∀ e ∈ m, e.2 ∈ syms ∧ e.1 = hi e.2
  complete : ∀ s ∈ syms, ∃ e ∈ m, e.1 = hi s

theorem storeOf_add {m : OMap Sym} {syms : List Sym} (h : StoreOf m syms) (s : Sym) (hs : Fits s) : StoreOf (add m s) (syms ++ [s]) := by
  unfold add
  rw [memaddr_hi s hs]
  refine ⟨OMap.sorted_emplace h.sorted, ?_, ?_⟩
  · intro e he
    rcases OMap.mem_emplace he with rfl | he
    · simp
    · have := h.keyed e he
      exact ⟨List.mem_append_left _ this.1, this.2⟩
  · intro x hx
    rcases List.mem_append.1 hx with hx | hx
    · obtain ⟨e, h1, h2⟩ := h.complete x hx
      exact ⟨e, OMap.mem_emplace_of_mem h1, h2⟩
    · simp at hx
      subst hx
      obtain ⟨e, h1, h2⟩ := OMap.key_emplace (hi x) x m
      exact ⟨e, h1, h2⟩

/-- Filling a store, in whatever order. -/
theorem storeOf_fill : ∀ (syms : List Sym), (∀ s ∈ syms, Fits s) → StoreOf (syms.foldl add []) syms := by
  intro syms
  suffices h : ∀ (l : List Sym) (m : OMap Sym) (pre : List Sym), StoreOf m pre → (∀ s ∈ l, Fits s) → StoreOf (l.foldl add m) (pre ++ l) by
    intro hf
    have := h syms [] [] ⟨List.Pairwise.nil, by simp, by simp⟩ hf
    simpa using this
  intro l
  induction l with
  | nil => intro m pre h _; simpa using h
  | cons s l ih =>
    intro m pre h hf
    have := ih (add m s) (pre ++ [s]) (storeOf_add h s (hf s List.mem_cons_self)) (fun x hx => hf x (List.mem_cons_of_mem _ hx))
    rw [List.append_assoc] at this
    exact this

theorem offsetFree_iff (a : BitVec 64) (s : Sym) (h : Fits s) : offsetFree a s = true ↔ Covers s a.toNat := by
  unfold offsetFree Covers
  rw [decide_eq_true_iff, BitVec.le_def, gt_iff_lt, BitVec.lt_def, memaddr_lo s h, memaddr_hi s h]

/-- The symbols do not overlap and leave a gap: of two with different ranges, one ends before the other starts. -/
def Apart (syms : List Sym) : Prop :=
  ∀ s ∈ syms, ∀ t ∈ syms, (lo s = lo t ∧ hi s = hi t) ∨ hi s < lo t ∨ hi t < lo s

/-- C41, soundness. A symbol that is found is one of those added, and covers the address. -/
theorem C41_found_covers (syms : List Sym) (hf : ∀ s ∈ syms, Fits s) (a : BitVec 64) (s : Sym)
    (h : find (syms.foldl add []) a offsetFree = some s) : s ∈ syms ∧ Covers s a.toNat := by
  have st := storeOf_fill syms hf
  unfold find at h
  split at h
  · cases h
  · rename_i k t r hl
    split at h
    · rename_i hm
      cases h
      obtain ⟨h1, h2⟩ := OMap.lowerBound_cons hl
      have := (st.keyed _ h1).1
      exact ⟨this, (offsetFree_iff _ _ (hf _ this)).1 hm⟩
    · cases h

/-- C41. An address is attributed to a symbol exactly when it lies in the range of one. Missing: symbols that touch, of which the
second loses its first address (below), and symbols that overlap. -/
theorem C41_attribution_partial (syms : List Sym) (hf : ∀ s ∈ syms, Fits s) (ha : Apart syms) (a : BitVec 64) :
    (∃ s ∈ syms, Covers s a.toNat) ↔ ∃ s, find (syms.foldl add []) a offsetFree = some s ∧ s ∈ syms ∧ Covers s a.toNat := by
  constructor
  · rintro ⟨s, hs, hc⟩
    have st := storeOf_fill syms hf
    obtain ⟨e, h1, h2⟩ := st.complete s hs
    obtain ⟨x, t, h3, h4⟩ := OMap.lowerBound_le st.sorted h1 (k := a.toNat) (by unfold Covers at hc; omega)
    obtain ⟨h5, h6⟩ := OMap.lowerBound_cons h3
    obtain ⟨h7, h8⟩ := st.keyed _ h5
    have hcov : Covers x.2 a.toNat := by
      unfold Covers at hc ⊢
      have := ha x.2 h7 s hs
      have hle : lo x.2 ≤ hi x.2 := by unfold hi; omega
      omega
    refine ⟨x.2, ?_, h7, hcov⟩
    unfold find
    rw [h3]
    simp only []
    rw [if_pos ((offsetFree_iff _ _ (hf _ h7)).2 hcov)]
  · rintro ⟨s, _, h2, h3⟩; exact ⟨s, h2, h3⟩

/-- The hypotheses of C41 hold of two symbols with a gap. -/
theorem C41_example : Apart [⟨0x100, 8, 0x400000, [0x61], 0, []⟩, ⟨0x110, 8, 0x400000, [0x62], 0, []⟩] ∧
    ∀ s ∈ [(⟨0x100, 8, 0x400000, [0x61], 0, []⟩ : Sym), ⟨0x110, 8, 0x400000, [0x62], 0, []⟩], Fits s := by
  constructor
  · intro s hs t ht
    simp at hs ht
    rcases hs with rfl | rfl <;> rcases ht with rfl | rfl <;> simp [lo, hi]
  · intro s hs
    simp at hs
    rcases hs with rfl | rfl <;> simp [Fits, lo, hi]

/-- C41, where it fails: if one symbol ends where another starts, references to the start of the second - which is where
references usually point - are attributed to neither. -/
theorem C41_not_abutting (s t : Sym) (hs : Fits s) (ht : Fits t) (habut : hi s = lo t) (hne : lo t < hi t) :
    Covers t (lo t) ∧ find ([s, t].foldl add []) (BitVec.ofNat 64 (lo t)) offsetFree = none := by
  refine ⟨⟨Nat.le_refl _, hne⟩, ?_⟩
  have hlt : lo t < 2 ^ 64 := by unfold Fits at ht; omega
  have ea : (BitVec.ofNat 64 (lo t)).toNat = lo t := by rw [BitVec.toNat_ofNat, Nat.mod_eq_of_lt hlt]
  have e : [s, t].foldl add [] = [(hi s, s), (hi t, t)] := by
    simp only [List.foldl, add, memaddr_hi s hs, memaddr_hi t ht, OMap.emplace]
    rw [if_neg (by omega), if_neg (by omega)]
  unfold find
  rw [e, ea]
  simp only [OMap.lowerBound, List.dropWhile]
  rw [show decide (hi s < lo t) = false by simp; omega]
  simp only []
  rw [if_neg]
  rw [offsetFree_iff _ _ hs, ea]
  unfold Covers
  omega

/-! ### Counts -/

theorem lowerBound_bump (m : OMap Sym) (k j : Nat) : OMap.lowerBound j (bump m k) = bump (OMap.lowerBound j m) k := by
  unfold OMap.lowerBound bump
  induction m with
  | nil => rfl
  | cons e m ih =>
    rw [List.map_cons, List.dropWhile_cons, List.dropWhile_cons]
    have : (if e.1 = k then (e.1, { e.2 with count := e.2.count + 1 }) else e).1 = e.1 := by split <;> rfl
    rw [this]
    split
    · exact ih
    · rw [List.map_cons]

/-- The symbol with its count raised by `n`. -/
def seen (s : Sym) (n : Nat) : Sym := { s with count := s.count + n }

theorem offsetFree_seen (a : BitVec 64) (s : Sym) (n : Nat) : offsetFree a (seen s n) = offsetFree a s := rfl

/-- The words that `find` attributes to the entry with key `k`. -/
def hits (mat : BitVec 64 → Sym → Bool) (m : OMap Sym) (k : Nat) (ws : List (BitVec 64)) : Nat :=
  ws.countP fun w => match OMap.lowerBound w.toNat m with
    | [] => false
    | e :: _ => e.1 = k ∧ mat w e.2

theorem search_counts (mat : BitVec 64 → Sym → Bool) (hmat : ∀ a s n, mat a (seen s n) = mat a s) (m : OMap Sym) (hs : OMap.Sorted m) :
    ∀ (ws : List (BitVec 64)) (c : Nat → Nat),
      search mat (m.map fun e => (e.1, seen e.2 (c e.1))) ws = m.map fun e => (e.1, seen e.2 (c e.1 + hits mat m e.1 ws)) := by
  intro ws
  induction ws with
  | nil => intro c; simp [search, hits]
  | cons w ws ih =>
    intro c
    have hlb : OMap.lowerBound w.toNat (m.map fun e => (e.1, seen e.2 (c e.1))) = (OMap.lowerBound w.toNat m).map fun e => (e.1, seen e.2 (c e.1)) := by
      unfold OMap.lowerBound
      rw [List.dropWhile_map]
      rfl
    rw [search, hlb]
    cases hl : OMap.lowerBound w.toNat m with
    | nil =>
      simp only [List.map_nil]
      rw [ih c]
      apply List.map_congr_left
      intro e _
      unfold hits
      rw [List.countP_cons]
      simp [hl]
    | cons x t =>
      simp only [List.map_cons]
      rw [hmat]
      by_cases hm : mat w x.2 = true
      · rw [if_pos hm]
        have : bump (m.map fun e => (e.1, seen e.2 (c e.1))) x.1 = m.map fun e => (e.1, seen e.2 ((fun k => if k = x.1 then c k + 1 else c k) e.1)) := by
          unfold bump
          rw [List.map_map]
          apply List.map_congr_left
          intro e _
          simp only [Function.comp]
          split
          · simp [seen, Nat.add_assoc]
          · rfl
        rw [this, ih (fun k => if k = x.1 then c k + 1 else c k)]
        apply List.map_congr_left
        intro e _
        unfold hits
        rw [List.countP_cons]
        simp only [hl, hm, and_true]
        by_cases he : e.1 = x.1
        · rw [if_pos he]; simp [he]; congr 1; omega
        · rw [if_neg he]; simp [Ne.symm he]
      · rw [if_neg hm, ih c]
        apply List.map_congr_left
        intro e _
        unfold hits
        rw [List.countP_cons]
        simp [hl, hm]

/-- C51. After scanning any sequence of words, the count reported for a symbol is the number of those words that lie in its range,
added to what it was. -/
theorem C51_histogram_partial (syms : List Sym) (hf : ∀ s ∈ syms, Fits s) (ha : Apart syms) (hnd : ∀ s ∈ syms, ∀ t ∈ syms, hi s = hi t → s = t)
    (ws : List (BitVec 64)) (s : Sym) (hs : s ∈ syms) :
    (hi s, seen s (ws.countP fun w => decide (lo s ≤ w.toNat ∧ w.toNat < hi s))) ∈ search offsetFree (syms.foldl add []) ws := by
  have st := storeOf_fill syms hf
  have h := search_counts offsetFree offsetFree_seen _ st.sorted ws (fun _ => 0)
  have h0 : ((syms.foldl add []).map fun e => (e.1, seen e.2 0)) = syms.foldl add [] := by
    conv => rhs; rw [← List.map_id (syms.foldl add [])]
    rfl
  rw [h0] at h
  rw [h]
  obtain ⟨e, h1, h2⟩ := st.complete s hs
  obtain ⟨h3, h4⟩ := st.keyed e h1
  have hes : e.2 = s := hnd _ h3 _ hs (by omega)
  refine List.mem_map.2 ⟨e, h1, ?_⟩
  rw [hes, h2, Nat.zero_add]
  congr 2
  unfold hits
  apply List.countP_congr
  intro w _
  constructor
  · intro hh
    cases hl : OMap.lowerBound w.toNat (syms.foldl add []) with
    | nil => rw [hl] at hh; simp at hh
    | cons x t =>
      rw [hl] at hh
      simp only [decide_eq_true_iff] at hh
      obtain ⟨h5, h6⟩ := OMap.lowerBound_cons hl
      obtain ⟨h7, h8⟩ := st.keyed x h5
      have : x.2 = s := hnd _ h7 _ hs (by omega)
      rw [this] at hh
      simpa [Covers] using (offsetFree_iff w s (hf s hs)).1 hh.2
  · intro hh
    have hc : Covers s w.toNat := by simpa [Covers] using hh
    obtain ⟨x, t, h5, h6⟩ := OMap.lowerBound_le st.sorted h1 (k := w.toNat) (by unfold Covers at hc; omega)
    obtain ⟨h7, h8⟩ := OMap.lowerBound_cons h5
    obtain ⟨h9, h10⟩ := st.keyed x h7
    rw [h5]
    simp only [decide_eq_true_iff]
    have hx : hi x.2 = hi s := by
      unfold Covers at hc
      have := ha x.2 h9 s hs
      have : lo x.2 ≤ hi x.2 := by unfold hi; omega
      omega
    have : x.2 = s := hnd _ h9 _ hs hx
    rw [this]
    exact ⟨by omega, (offsetFree_iff w s (hf s hs)).2 hc⟩

/-- C51, with C40: the store that is scanned holds exactly the symbols that match one of the patterns. -/
theorem C51_collected (patterns : List (List Byte)) (syms : List Sym) (hp : ∀ p ∈ patterns, (0 : Byte) ∉ p) (hn : ∀ s ∈ syms, (0 : Byte) ∉ s.name) :
    ∃ sel : List Sym, collect patterns syms = sel.foldl add [] ∧ ∀ s, s ∈ sel ↔ s ∈ syms ∧ ∃ p ∈ patterns, Fills p s.name := by
  refine ⟨syms.flatMap fun s => (patterns.filter fun p => globmatch p s.name).map fun _ => s, ?_, ?_⟩
  · unfold collect
    generalize ([] : OMap Sym) = m
    induction syms generalizing m with
    | nil => rfl
    | cons s syms ih =>
      rw [List.flatMap_cons, List.foldl_append, List.foldl_cons]
      have : ∀ (ps : List (List Byte)) (m : OMap Sym), ps.foldl (fun m p => if globmatch p s.name then add m s else m) m =
          ((ps.filter fun p => globmatch p s.name).map fun _ => s).foldl add m := by
        intro ps
        induction ps with
        | nil => intro m; rfl
        | cons p ps ihp =>
          intro m
          rw [List.foldl_cons, List.filter_cons]
          split
          · rw [List.map_cons, List.foldl_cons]; exact ihp _
          · exact ihp _
      rw [this]
      exact ih (fun x hx => hn x (List.mem_cons_of_mem _ hx)) _
  · intro s
    simp only [List.mem_flatMap, List.mem_map, List.mem_filter]
    constructor
    · rintro ⟨x, hx, p, ⟨h1, h2⟩, rfl⟩
      exact ⟨hx, p, h1, (C40_glob _ _ (hp p h1) (hn x hx)).1 h2⟩
    · rintro ⟨hx, p, h1, h2⟩
      exact ⟨s, hx, p, ⟨h1, (C40_glob _ _ (hp p h1) (hn s hx)).2 h2⟩, rfl⟩

end Pstack.Props
