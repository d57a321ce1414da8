import Verif.Proof.Reader
namespace Pstack.Reader
open Pstack.Spec

/-- One use of a caching reader. -/
inductive CacheOp where
  | read (off count : Nat)
  | str (off : Nat)
  | flush

/-- Perform one operation against the given source (of the given size), keeping the new cache state. -/
def Cache.step (src : Source) (size : Nat) (c : Cache) : CacheOp → Cache
  | .read off count => (c.read src off count).1
  | .str off => (c.readString src size off).1
  | .flush => c.flush

/-- Perform a history in which the source may be a different one at every step. -/
def Cache.run (c : Cache) : List (Source × Nat × CacheOp) → Cache
  | [] => c
  | (src, size, op) :: h => (c.step src size op).run h

/-! ### lifting invariants of getPage -/

theorem readLoop_lift (P : List Page → Prop) (src : Source)
    (hP : ∀ c off, P c.pages → P (Cache.getPage src c off).1.pages) :
    ∀ count c off, P c.pages → P (Cache.readLoop src c off count).1.pages := by
  intro count
  induction count using Nat.strongRecOn with
  | ind count ih =>
    intro c off hc
    unfold Cache.readLoop
    split
    · exact hc
    · have hg := hP c (off - off % PAGESIZE) hc
      dsimp only
      generalize Cache.getPage src c (off - off % PAGESIZE) = g at hg ⊢
      obtain ⟨c', r⟩ := g
      cases r with
      | none => exact hg
      | some page =>
        dsimp only
        split
        · exact hg
        · split
          · exact hg
          · exact ih _ (by omega) _ _ hg

theorem read_lift (P : List Page → Prop) (src : Source)
    (hP : ∀ c off, P c.pages → P (Cache.getPage src c off).1.pages) (c : Cache) (off count : Nat) (hc : P c.pages) :
    P (c.read src off count).1.pages := by
  unfold Cache.read
  split
  · exact hc
  · exact readLoop_lift P src hP _ _ _ hc

theorem readStringLoop_lift (P : List Page → Prop) (src : Source)
    (hP : ∀ c off, P c.pages → P (Cache.getPage src c off).1.pages) :
    ∀ n c off, P c.pages → P (Cache.readStringLoop src n c off).1.pages := by
  intro n
  induction n with
  | zero => intro c off hc; exact hc
  | succ n ih =>
    intro c off hc
    have h := read_lift P src hP c off 1 hc
    unfold Cache.readStringLoop
    split
    · rename_i c' b heq
      rw [heq] at h
      split
      · exact h
      · exact ih _ _ h
    · rename_i c' r _ heq
      rw [heq] at h
      exact h

theorem step_lift (P : List Page → Prop) (hnil : P []) (src : Source) (size : Nat)
    (hP : ∀ c off, P c.pages → P (Cache.getPage src c off).1.pages) (c : Cache) (op : CacheOp) (hc : P c.pages) :
    P (c.step src size op).pages := by
  cases op with
  | read off count => exact read_lift P src hP c off count hc
  | flush => exact hnil
  | str off =>
    show P (c.readString src size off).1.pages
    unfold Cache.readString
    split
    · exact hc
    · dsimp only
      split
      · exact hc
      · exact readStringLoop_lift P src hP _ _ _ hc

theorem run_lift (P : List Page → Prop) (hnil : P [])
    (hP : ∀ src c off, P c.pages → P (Cache.getPage src c off).1.pages) (h : List (Source × Nat × CacheOp)) :
    ∀ c : Cache, P c.pages → P (c.run h).pages := by
  induction h with
  | nil => intro c hc; exact hc
  | cons x h ih =>
    obtain ⟨src, size, op⟩ := x
    intro c hc
    exact ih _ (step_lift P hnil src size (hP src) c op hc)

/-- At most MAXPAGES pages, distinct offsets. -/
def PagesOK (ps : List Page) : Prop := ps.length ≤ MAXPAGES ∧ (ps.map (·.offset)).Nodup

theorem map_eraseP_offset (off : Nat) (ps : List Page) :
    (ps.eraseP (fun p => p.offset == off)).map (·.offset) = (ps.map (·.offset)).erase off := by
  induction ps with
  | nil => rfl
  | cons p ps ih =>
    by_cases h : p.offset = off
    · subst h; simp
    · have h1 : (p.offset == off) = false := by simpa using h
      simp [List.eraseP_cons, h1, ih, h]

theorem getPage_ok (src : Source) (c : Cache) (off : Nat) (h : PagesOK c.pages) : PagesOK (c.getPage src off).1.pages := by
  obtain ⟨h1, h2⟩ := h
  unfold Cache.getPage
  cases hf : c.pages.find? (fun p => p.offset == off) with
  | some p =>
    have hmem := List.mem_of_find?_eq_some hf
    have hoff : p.offset = off := by simpa using List.find?_some hf
    refine ⟨?_, ?_⟩
    · have : (c.pages.eraseP (fun p => p.offset == off)).length = c.pages.length - 1 :=
        List.length_eraseP_of_mem hmem (by simp [hoff])
      simp only [List.length_cons, this]
      have := List.length_pos_of_mem hmem
      omega
    · simp only [List.map_cons, map_eraseP_offset, hoff, List.nodup_cons]
      exact ⟨h2.not_mem_erase, h2.erase _⟩
  | none =>
    have hno : off ∉ c.pages.map (·.offset) := by
      simp only [List.find?_eq_none, beq_iff_eq] at hf
      simpa using hf
    have hkl : (if c.pages.length = MAXPAGES then c.pages.dropLast else c.pages).length < MAXPAGES := by
      split
      · rename_i h; simp [h, MAXPAGES]
      · omega
    have hsub : List.Sublist (if c.pages.length = MAXPAGES then c.pages.dropLast else c.pages) c.pages := by
      split
      · exact List.dropLast_sublist _
      · exact List.Sublist.refl _
    have hn := h2.sublist (hsub.map (·.offset))
    dsimp only
    split
    · exact ⟨by dsimp only; omega, hn⟩
    · exact ⟨by simp only [List.length_cons]; omega,
        by simp only [List.map_cons, List.nodup_cons]; exact ⟨fun hm => hno ((hsub.map _).subset hm), hn⟩⟩

/-! ### recency -/

theorem filter_eraseDups (t : Nat) (l : List Nat) :
    (l.filter (fun x => !x == t)).eraseDups = l.eraseDups.filter (fun x => !x == t) := by
  generalize hn : l.length = n
  induction n using Nat.strongRecOn generalizing l with
  | ind n ih =>
    cases l with
    | nil => rfl
    | cons a l =>
      by_cases ha : a = t
      · subst ha
        rw [List.filter_cons_of_neg (by simp), List.eraseDups_cons, List.filter_cons_of_neg (by simp)]
        have h1 := ih (l.length) (by simp at hn; omega) l rfl
        have h2 : (l.filter (fun b => !b == a)).length ≤ l.length := List.length_filter_le _ _
        have h3 := ih (l.filter (fun b => !b == a)).length (by simp at hn; omega) (l.filter (fun b => !b == a)) rfl
        rw [← h3]; simp
      · rw [List.filter_cons_of_pos (by simp [ha]), List.eraseDups_cons, List.eraseDups_cons,
          List.filter_cons_of_pos (by simp [ha])]
        congr 1
        have h2 : (l.filter (fun b => !b == a)).length ≤ l.length := List.length_filter_le _ _
        have h3 := ih (l.filter (fun b => !b == a)).length (by simp at hn; omega) (l.filter (fun b => !b == a)) rfl
        rw [← h3, List.filter_filter, List.filter_filter]
        congr 2
        funext x; rw [Bool.and_comm]

theorem nodup_eraseDups (l : List Nat) : l.eraseDups.Nodup := by
  generalize hn : l.length = n
  induction n using Nat.strongRecOn generalizing l with
  | ind n ih =>
    cases l with
    | nil => simp
    | cons a l =>
      rw [List.eraseDups_cons, List.nodup_cons]
      have h2 : (l.filter (fun b => !b == a)).length ≤ l.length := List.length_filter_le _ _
      refine ⟨?_, ih _ (by simp at hn; omega) _ rfl⟩
      rw [filter_eraseDups]; simp

theorem take_erase_of_mem (t : Nat) : ∀ (n : Nat) (D : List Nat), D.Nodup → t ∈ D.take (n + 1) →
    (D.take (n + 1)).erase t = (D.filter (fun x => !x == t)).take n := by
  intro n
  induction n with
  | zero =>
    intro D hD ht
    cases D with
    | nil => simp at ht
    | cons d D => simp at ht; subst ht; simp
  | succ n ih =>
    intro D hD ht
    cases D with
    | nil => simp at ht
    | cons d D =>
      rw [List.take_succ_cons] at ht ⊢
      by_cases hd : d = t
      · subst hd
        have hnot : d ∉ D := (List.nodup_cons.1 hD).1
        rw [List.erase_cons_head, List.filter_cons_of_neg (by simp), List.filter_eq_self.2]
        intro a ha
        simp; rintro rfl; exact hnot ha
      · rw [List.erase_cons_tail (by simpa using hd), List.filter_cons_of_pos (by simp [hd]), List.take_succ_cons]
        congr 1
        apply ih D (List.nodup_cons.1 hD).2
        rcases List.mem_cons.1 ht with h | h
        · exact absurd h.symm hd
        · exact h

theorem take_filter_of_not_mem (t : Nat) : ∀ (n : Nat) (D : List Nat), t ∉ D.take n →
    (D.filter (fun x => !x == t)).take n = D.take n := by
  intro n
  induction n with
  | zero => intro D _; simp
  | succ n ih =>
    intro D ht
    cases D with
    | nil => simp
    | cons d D =>
      rw [List.take_succ_cons, List.mem_cons, not_or] at ht
      rw [List.filter_cons_of_pos (by simp; exact fun h => ht.1 h.symm), List.take_succ_cons, List.take_succ_cons, ih D ht.2]

/-- Pages held after a sequence of successful page accesses, most recent access last in `ts`. -/
theorem getPage_recency (src : Source) (c : Cache) (h : List Nat) (t : Nat)
    (hsrc : src t PAGESIZE ≠ none)
    (hinv : c.pages.map (·.offset) = (h.eraseDups).take MAXPAGES) :
    (c.getPage src t).1.pages.map (·.offset) = ((t :: h).eraseDups).take MAXPAGES := by
  have hD := nodup_eraseDups h
  rw [List.eraseDups_cons, filter_eraseDups]
  generalize h.eraseDups = D at *
  show _ = List.take (15 + 1) _
  rw [List.take_succ_cons]
  unfold Cache.getPage
  cases hf : c.pages.find? (fun p => p.offset == t) with
  | some p =>
    have hmem := List.mem_of_find?_eq_some hf
    have hoff : p.offset = t := by simpa using List.find?_some hf
    simp only [List.map_cons, map_eraseP_offset, hoff, hinv]
    congr 1
    apply take_erase_of_mem t 15 D hD
    show t ∈ D.take MAXPAGES
    rw [← hinv, ← hoff]
    exact List.mem_map_of_mem hmem
  | none =>
    have hno : t ∉ c.pages.map (·.offset) := by
      simp only [List.find?_eq_none, beq_iff_eq] at hf
      simpa using hf
    have hlen : c.pages.length = min MAXPAGES D.length := by
      have := congrArg List.length hinv
      simpa using this
    obtain ⟨d, hd⟩ := Option.ne_none_iff_exists'.1 hsrc
    simp only [hd, List.map_cons]
    congr 1
    rw [hinv] at hno
    have hno15 : t ∉ D.take 15 := fun hm => hno ((List.take_subset_take_left D (by decide : 15 ≤ MAXPAGES)) hm)
    rw [take_filter_of_not_mem t 15 D hno15]
    split
    · rename_i hfull
      rw [List.map_dropLast, hinv]
      rw [List.dropLast_eq_take, List.length_take, List.take_take]
      congr 1
      rw [hfull] at hlen
      simp only [MAXPAGES] at *
      omega
    · rw [hinv]
      have : D.length ≤ 15 := by simp only [MAXPAGES] at *; omega
      rw [List.take_of_length_le this, List.take_of_length_le (Nat.le_trans this (by decide))]

/-! ### strings through the cache -/

theorem readStringLoop_spec {src : Source} {m : Mem} (hs : Serves src m) (hb : BlockPrefix m) :
    ∀ n c off, PagesAgree m c →
      PagesAgree m (Cache.readStringLoop src n c off).1 ∧
      (Cache.readStringLoop src n c off).2 = (slice m off n).takeWhile (· ≠ 0#8) ∧
      (Cache.readStringLoop src n c off).1.strings = c.strings := by
  intro n
  induction n with
  | zero => intro c off hc; exact ⟨hc, rfl, rfl⟩
  | succ n ih =>
    intro c off hc
    obtain ⟨h1, h2, h3⟩ := read_spec hs hb hc off 1
    have h2' : (c.read src off 1).2 = .ok (slice m off 1) := by
      rcases h2 with h2 | ⟨_, h2, _⟩
      · exact h2
      · exact absurd h2 (by decide)
    generalize hr : c.read src off 1 = r at *
    obtain ⟨c', o⟩ := r
    simp only at h1 h2' h3
    unfold Cache.readStringLoop
    rw [hr, h2', slice_succ m off n, slice_succ m off 0]
    cases hm : m off with
    | none => simp [h1, h3]
    | some b =>
      simp only [slice]
      by_cases hb0 : b = 0#8
      · simp [hb0, h1, h3]
      · simp only [hb0, if_false]
        obtain ⟨i1, i2, i3⟩ := ih c' (off + 1) h1
        refine ⟨i1, ?_, i3.trans h3⟩
        rw [i2, List.takeWhile_cons_of_pos (by simpa using hb0)]

theorem readString_spec {src : Source} {m : Mem} (hs : Serves src m) (hb : BlockPrefix m) (size : Nat) (c : Cache)
    (off : Nat) (hc : PagesAgree m c) :
    PagesAgree m (c.readString src size off).1 ∧
    (c.strings.lookup off = none →
      (c.readString src size off).2 = if off = 0 then nullString else cstring m size off) ∧
    (∀ o, o ≠ off → (c.readString src size off).1.strings.lookup o = c.strings.lookup o) := by
  unfold Cache.readString
  cases hl : c.strings.lookup off with
  | some s => exact ⟨hc, by simp, fun _ _ => rfl⟩
  | none =>
    by_cases h0 : off = 0
    · simp only [h0, if_true]
      refine ⟨hc, fun _ => trivial, fun o ho => ?_⟩
      have : (o == 0) = false := by simpa using ho
      simp [List.lookup_cons, this]
    · obtain ⟨i1, i2, i3⟩ := readStringLoop_spec hs hb (size - off) c off hc
      simp only [h0, if_false]
      refine ⟨i1, fun _ => i2, fun o ho => ?_⟩
      have : (o == off) = false := by simpa using ho
      simp [List.lookup_cons, this, i3]

/-- Which offsets a history has string-read. -/
theorem read_strings (src : Source) (c : Cache) (off count : Nat) : (c.read src off count).1.strings = c.strings := by
  have hg : ∀ (c : Cache) off, (c.getPage src off).1.strings = c.strings := by
    intro c off
    unfold Cache.getPage
    split
    · rfl
    · dsimp only; split <;> rfl
  have hl : ∀ count (c : Cache) off, (c.readLoop src off count).1.strings = c.strings := by
    intro count
    induction count using Nat.strongRecOn with
    | ind count ih =>
      intro c off
      unfold Cache.readLoop
      split
      · rfl
      · have h := hg c (off - off % PAGESIZE)
        dsimp only
        generalize Cache.getPage src c (off - off % PAGESIZE) = g at h ⊢
        obtain ⟨c', r⟩ := g
        cases r with
        | none => exact h
        | some page =>
          dsimp only
          split
          · exact h
          · split
            · exact h
            · exact (ih _ (by omega) _ _).trans h
  unfold Cache.read
  split
  · rfl
  · exact hl _ _ _

theorem readStringLoop_strings (src : Source) : ∀ n (c : Cache) off, (Cache.readStringLoop src n c off).1.strings = c.strings := by
  intro n
  induction n with
  | zero => intro c off; rfl
  | succ n ih =>
    intro c off
    have h := read_strings src c off 1
    unfold Cache.readStringLoop
    split
    · rename_i c' b heq
      rw [heq] at h
      split
      · exact h
      · exact (ih _ _).trans h
    · rename_i c' r _ heq
      rw [heq] at h
      exact h

theorem step_strings (src : Source) (size : Nat) (c : Cache) (op : CacheOp) (off : Nat) (h : op ≠ .str off) :
    (c.step src size op).strings.lookup off = c.strings.lookup off := by
  cases op with
  | read o n => show (c.read src o n).1.strings.lookup off = _; rw [read_strings]
  | flush => rfl
  | str o =>
    have ho : off ≠ o := by rintro rfl; exact h rfl
    have hoff : (off == o) = false := by simpa using ho
    show (c.readString src size o).1.strings.lookup off = _
    unfold Cache.readString
    split
    · rfl
    · dsimp only
      split
      · simp [List.lookup_cons, hoff]
      · simp [List.lookup_cons, hoff, readStringLoop_strings]

theorem run_strings (off : Nat) (h : List (Source × Nat × CacheOp)) :
    ∀ c : Cache, (∀ x ∈ h, x.2.2 ≠ .str off) → (c.run h).strings.lookup off = c.strings.lookup off := by
  induction h with
  | nil => intro c _; rfl
  | cons x h ih =>
    obtain ⟨src, size, op⟩ := x
    intro c hx
    show ((c.step src size op).run h).strings.lookup off = _
    rw [ih _ (fun y hy => hx y (List.mem_cons_of_mem _ hy)),
      step_strings src size c op off (hx _ (List.mem_cons_self))]

/-- A history against one source serving one memory keeps the pages in agreement. -/
theorem run_agree {src : Source} {m : Mem} (hs : Serves src m) (hb : BlockPrefix m)
    (h : List (Source × Nat × CacheOp)) (hsrc : ∀ x ∈ h, x.1 = src) :
    ∀ c : Cache, PagesAgree m c → PagesAgree m (c.run h) := by
  induction h with
  | nil => intro c hc; exact hc
  | cons x h ih =>
    obtain ⟨src', size, op⟩ := x
    intro c hc
    have : src' = src := hsrc _ List.mem_cons_self
    subst this
    refine ih (fun y hy => hsrc y (List.mem_cons_of_mem _ hy)) _ ?_
    cases op with
    | read off count => exact (read_spec hs hb hc off count).1
    | str off => exact (readString_spec hs hb size c off hc).1
    | flush => intro p hp; simp [Cache.step, Cache.flush] at hp

end Pstack.Reader
