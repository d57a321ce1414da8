import Verif.Model.Reader
import Verif.Spec.Reader
namespace Pstack.Reader
open Pstack.Spec

/-! ### slices -/

theorem slice_succ (m : Mem) (off n : Nat) :
    slice m off (n + 1) = match m off with | none => [] | some b => b :: slice m (off + 1) n := rfl

theorem slice_length_le (m : Mem) (off n : Nat) : (slice m off n).length ≤ n := by
  induction n generalizing off with
  | zero => simp [slice]
  | succ n ih =>
    unfold slice
    cases m off with
    | none => simp
    | some b => simpa using ih (off + 1)

theorem slice_take (m : Mem) (off n k : Nat) : (slice m off n).take k = slice m off (min k n) := by
  induction n generalizing off k with
  | zero => simp [slice]
  | succ n ih =>
    cases k with
    | zero => simp [slice]
    | succ k =>
      rw [Nat.succ_min_succ]
      unfold slice
      cases m off with
      | none => simp
      | some b => simp [ih]

theorem slice_drop (m : Mem) (off n k : Nat) (h : k ≤ (slice m off n).length) :
    (slice m off n).drop k = slice m (off + k) (n - k) := by
  induction k generalizing off n with
  | zero => simp
  | succ k ih =>
    cases n with
    | zero => simp [slice] at h
    | succ n =>
      rw [slice_succ] at h ⊢
      cases hm : m off with
      | none => simp [hm] at h
      | some b =>
        simp only [hm, List.length_cons, Nat.add_le_add_iff_right] at h
        simp only [List.drop_succ_cons, Nat.add_sub_add_right]
        rw [ih _ _ h, Nat.add_assoc, Nat.add_comm 1 k]

theorem slice_append (m : Mem) (off k n : Nat) (h : (slice m off k).length = k) :
    slice m off (k + n) = slice m off k ++ slice m (off + k) n := by
  induction k generalizing off with
  | zero => simp [slice]
  | succ k ih =>
    rw [Nat.succ_add]
    unfold slice at h ⊢
    cases hm : m off with
    | none => simp [hm] at h
    | some b =>
      simp only [hm, List.length_cons, Nat.add_right_cancel_iff] at h
      simp only [List.cons_append]
      rw [ih _ h, Nat.add_assoc, Nat.add_comm 1 k]
      cases n <;> rfl

theorem slice_hole (m : Mem) (off n : Nat) (h : (slice m off n).length < n) :
    m (off + (slice m off n).length) = none := by
  induction n generalizing off with
  | zero => simp at h
  | succ n ih =>
    unfold slice at h ⊢
    cases hm : m off with
    | none => simp [hm]
    | some b =>
      simp only [hm, List.length_cons, Nat.add_lt_add_iff_right] at h ⊢
      have := ih (off + 1) h
      rwa [Nat.add_assoc, Nat.add_comm 1] at this

theorem slice_short (m : Mem) (off k n : Nat) (h : (slice m off k).length < k) (hk : k ≤ n) :
    slice m off n = slice m off k := by
  induction k generalizing off n with
  | zero => simp at h
  | succ k ih =>
    cases n with
    | zero => omega
    | succ n =>
      unfold slice at h ⊢
      cases hm : m off with
      | none => rfl
      | some b =>
        simp only [hm, List.length_cons, Nat.add_lt_add_iff_right] at h
        simp only
        rw [ih _ n h (by omega)]

theorem slice_none (m : Mem) (off n : Nat) (h : m off = none) : slice m off n = [] := by
  cases n <;> simp [slice, h]

theorem none_of_slice_nil (m : Mem) (off n : Nat) (hn : 0 < n) (h : slice m off n = []) : m off = none := by
  cases n with
  | zero => omega
  | succ n =>
    unfold slice at h
    cases hm : m off with
    | none => rfl
    | some b => simp [hm] at h

theorem slice_ofList (l : List Byte) (off n : Nat) : slice (ofList l) off n = (l.drop off).take n := by
  induction n generalizing off with
  | zero => simp [slice]
  | succ n ih =>
    unfold slice
    by_cases h : off < l.length
    · rw [List.drop_eq_getElem_cons h, List.take_succ_cons]
      simp [ofList, h, ih]
    · have h' : l.length ≤ off := by omega
      simp [ofList, List.drop_eq_nil_of_le h', List.getElem?_eq_none h']

theorem ofList_blockPrefix (l : List Byte) : BlockPrefix (ofList l) := by
  intro i j hij _ h
  simp [ofList] at h ⊢
  omega

/-! ### the page cache -/

/-- Every cached page holds what the memory holds. -/
def PagesAgree (m : Mem) (c : Cache) : Prop :=
  ∀ p ∈ c.pages, p.data = slice m p.offset PAGESIZE

theorem getPage_spec {src : Source} {m : Mem} (hs : Serves src m) {c : Cache} (hc : PagesAgree m c) (off : Nat) :
    PagesAgree m (c.getPage src off).1 ∧
    (∀ p, (c.getPage src off).2 = some p → p.data = slice m off PAGESIZE) ∧
    ((c.getPage src off).2 = none → slice m off PAGESIZE = []) ∧
    (c.getPage src off).1.strings = c.strings := by
  unfold Cache.getPage
  cases hf : c.pages.find? (fun p => p.offset == off) with
  | some p =>
    have hmem := List.mem_of_find?_eq_some hf
    have hoff : p.offset = off := by simpa using List.find?_some hf
    refine ⟨?_, ?_, ?_, rfl⟩
    · intro q hq
      rcases List.mem_cons.1 hq with rfl | hq
      · exact hc _ hmem
      · exact hc _ (List.mem_of_mem_eraseP hq)
    · intro q hq
      simp only [Option.some.injEq] at hq
      subst hq
      rw [← hoff]; exact hc _ hmem
    · simp
  | none =>
    have hk : ∀ p ∈ (if c.pages.length = MAXPAGES then c.pages.dropLast else c.pages), p ∈ c.pages := by
      intro p hp
      split at hp
      · exact List.dropLast_subset _ hp
      · exact hp
    have := hs off PAGESIZE
    cases hsrc : src off PAGESIZE with
    | none =>
      simp only [hsrc] at this ⊢
      exact ⟨fun p hp => hc _ (hk p hp), by simp, fun _ => this, trivial⟩
    | some d =>
      simp only [hsrc] at this ⊢
      refine ⟨?_, ?_, by simp, trivial⟩
      · intro p hp
        rcases List.mem_cons.1 hp with rfl | hp
        · exact this
        · exact hc _ (hk p hp)
      · intro p hp
        simp only [Option.some.injEq] at hp
        subst hp
        exact this

theorem readLoop_spec {src : Source} {m : Mem} (hs : Serves src m) (hb : BlockPrefix m) :
    ∀ (count : Nat) (c : Cache) (off : Nat), PagesAgree m c →
    PagesAgree m (c.readLoop src off count).1 ∧ (c.readLoop src off count).2 = slice m off count ∧
    (c.readLoop src off count).1.strings = c.strings := by
  intro count
  induction count using Nat.strongRecOn with
  | ind count ih =>
    intro c off hc
    unfold Cache.readLoop
    by_cases h0 : count = 0
    · subst h0; simp [slice, hc]
    · simp only [h0, if_false]
      have hlt : off % PAGESIZE < 256 := Nat.mod_lt _ (by decide)
      have hle : off % PAGESIZE ≤ off := Nat.mod_le _ _
      have hbase : off - off % PAGESIZE + off % PAGESIZE = off := Nat.sub_add_cancel hle
      have hdiv : (off - off % PAGESIZE) / 256 = off / 256 := by
        show (off - off % 256) / 256 = off / 256
        omega
      generalize hbo : off - off % PAGESIZE = base at *
      obtain ⟨hc', hsome, hnone, hstr⟩ := getPage_spec hs hc base
      generalize hg : c.getPage src base = g at *
      obtain ⟨c', r⟩ := g
      cases r with
      | none =>
        simp only at hc' hnone hstr ⊢
        refine ⟨hc', ?_, hstr⟩
        have h1 := none_of_slice_nil m base PAGESIZE (by decide) (hnone trivial)
        have h2 : m off = none := by
          cases hmo : m off with
          | none => rfl
          | some b =>
            have := hb base off (by omega) hdiv (by simp [hmo])
            simp [h1] at this
        rw [slice_none m off count h2]
      | some page =>
        simp only at hc' hsome hstr ⊢
        have hd : page.data = slice m base PAGESIZE := hsome page rfl
        have hlen : page.data.length ≤ 256 := by rw [hd]; exact slice_length_le m base 256
        by_cases hge : off % PAGESIZE ≥ page.data.length
        · simp only [hge, if_true]
          refine ⟨hc', ?_, hstr⟩
          have hh : m (base + page.data.length) = none := by
            rw [hd]; apply slice_hole
            rw [← hd]; show page.data.length < 256; omega
          have h2 : m off = none := by
            cases hmo : m off with
            | none => rfl
            | some b =>
              have := hb (base + page.data.length) off (by omega) (by omega) (by simp [hmo])
              simp [hh] at this
          rw [slice_none m off count h2]
        · simp only [hge, if_false]
          have hbytes : (page.data.drop (off % PAGESIZE)).take (min (page.data.length - off % PAGESIZE) count)
              = slice m off (min (page.data.length - off % PAGESIZE) count) := by
            rw [hd, slice_drop m base PAGESIZE _ (by rw [← hd]; omega), hbase, slice_take]
            congr 1
            rw [← hd]
            have : PAGESIZE = 256 := rfl
            omega
          have hdl : (page.data.drop (off % PAGESIZE)).length = page.data.length - off % PAGESIZE := by simp
          have hblen : (slice m off (min (page.data.length - off % PAGESIZE) count)).length
              = min (page.data.length - off % PAGESIZE) count := by
            rw [← hbytes, List.length_take, hdl]; omega
          by_cases hfull : page.data.length ≠ PAGESIZE
          · simp only [hfull, if_true, ne_eq, not_false_eq_true]
            refine ⟨hc', ?_, hstr⟩
            rw [hbytes]
            by_cases hcnt : count ≤ page.data.length - off % PAGESIZE
            · rw [Nat.min_eq_right hcnt]
            · have hmin : min (page.data.length - off % PAGESIZE) count = page.data.length - off % PAGESIZE := by omega
              rw [hmin] at hblen ⊢
              have hh : m (base + page.data.length) = none := by
                rw [hd]; apply slice_hole
                rw [← hd]
                have : PAGESIZE = 256 := rfl
                omega
              obtain ⟨k, hk⟩ : ∃ k, count = (page.data.length - off % PAGESIZE) + k := ⟨_, (Nat.add_sub_of_le (by omega)).symm⟩
              rw [hk, slice_append m off _ k hblen]
              have : off + (page.data.length - off % PAGESIZE) = base + page.data.length := by omega
              rw [this, slice_none m _ k hh, List.append_nil]
          · simp only [hfull, if_false]
            generalize hch : min (page.data.length - off % PAGESIZE) count = chunk at *
            obtain ⟨i1, i2, i3⟩ := ih (count - chunk) (by omega) c' (off + chunk) hc'
            refine ⟨i1, ?_, i3.trans hstr⟩
            rw [hbytes, i2]
            have : slice m off count = slice m off (chunk + (count - chunk)) := by congr 1; omega
            rw [this, slice_append m off chunk _ hblen]

theorem read_spec {src : Source} {m : Mem} (hs : Serves src m) (hb : BlockPrefix m) {c : Cache}
    (hc : PagesAgree m c) (off count : Nat) :
    PagesAgree m (c.read src off count).1 ∧
    ((c.read src off count).2 = .ok (slice m off count) ∨
      ((c.read src off count).2 = .exc ∧ count ≥ PAGESIZE ∧ src off count = none)) ∧
    (c.read src off count).1.strings = c.strings := by
  unfold Cache.read
  by_cases h : count ≥ PAGESIZE
  · simp only [h, if_true]
    have := hs off count
    cases hsrc : src off count with
    | none => simp [hc]
    | some bs =>
      simp only [hsrc] at this
      simp [hc, this]
  · simp only [h, if_false]
    obtain ⟨h1, h2, h3⟩ := readLoop_spec hs hb count c off hc
    exact ⟨h1, Or.inl (by rw [h2]), h3⟩

end Pstack.Reader
