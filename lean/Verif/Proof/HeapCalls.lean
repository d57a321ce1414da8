import Verif.Proof.Heap
/-
Proofs about the debugging heap: calls of one thread.
-/
namespace Pstack.Spec
open Pstack.Heap

/-- Nobody is in the heap. -/
abbrev still (s : St) (evs : List HeapEv) : HeapWorld := ⟨s, [], [], [], evs⟩

section
variable {cfg : Config} {s : St} {evs : List HeapEv} (hi : HInv cfg (still s evs))
include hi

theorem still_has {p n : Nat} (h : (p, n) ∈ blocks evs) : (still s evs).Has p n := ⟨h, fun _ h => nomatch h⟩

/-- A block of the program, its descriptor and its guards. -/
theorem still_block {p n : Nat} (h : (p, n) ∈ blocks evs) : ∃ d D N, d ∈ s.heap ∧ D.data + 16 = p ∧ D.len = n ∧ Held s d D N memAllocated ∧ load s (p - 16) 8 = .ok d ∧ descOf s d = .ok D := by
  obtain ⟨d, D, hd, hD, hp, hn⟩ := hi.block h
  obtain ⟨D', N, hh⟩ := hi.held d (.inl hd)
  have e := hh.1; rw [hD] at e; injection e with e; subst e
  have hst : stateOf (still s evs) d = memAllocated := by
    unfold stateOf
    rw [if_neg]
    rintro (k | k | k)
    · cases k
    · exact (hi.inHeap hd).2.1 k
    · cases k
  rw [hst] at hh
  refine ⟨d, D, N, hd, hp, hn, hh, ?_, ?_⟩
  · obtain ⟨g1, g2, g3, g4, g5, g6, g7⟩ := hh
    unfold load
    rw [show p - 16 = D.data by omega, if_pos (mapped_of g2 g3 (by simp only; omega))]
    exact congrArg Res.ok g5
  · unfold descOf; rw [hh.1]

theorem still_free {d : Nat} (h : d ∈ s.freelist) : ∃ D N, Held s d D N memFree := by
  obtain ⟨D, N, hh⟩ := hi.held d (.inr (.inr (.inl h)))
  have hst : stateOf (still s evs) d = memFree := by unfold stateOf; rw [if_pos (.inr (.inl h))]
  rw [hst] at hh
  exact ⟨D, N, hh⟩

omit hi in
theorem sanityFree_ok (hf : cfg.doFill = false) {d : Nat} {D : Desc} {N : Nat} (h : Held s d D N memFree) : sanityFree cfg d s = .ok () := by
  unfold sanityFree
  rw [getState_held h, Res.bind_ok, if_neg (by simp), hf]
  rfl

/-- Every call begins with this. -/
theorem enter_ok (hf : cfg.doFill = false) : enter cfg s = .ok () := by
  unfold enter
  split
  · unfold assertHeap
    split
    · rfl
    · have h1 : ∀ l, (∀ d ∈ l, d ∈ s.heap) → assertHeap.goHeap s l = .ok () := by
        intro l
        induction l with
        | nil => intro _; rfl
        | cons d l ih =>
          intro hl
          have hd := hl d List.mem_cons_self
          obtain ⟨D, N, hh⟩ := hi.held d (.inl hd)
          have hst : stateOf (still s evs) d = memAllocated := by
            unfold stateOf
            rw [if_neg]
            rintro (k | k | k)
            · cases k
            · exact (hi.inHeap hd).2.1 k
            · cases k
          rw [hst] at hh
          rw [assertHeap.goHeap, getState_held hh, Res.bind_ok, if_neg (by simp)]
          exact ih (fun e he => hl e (List.mem_cons_of_mem _ he))
      have h2 : ∀ l, (∀ d ∈ l, d ∈ s.freelist) → assertHeap.goFree cfg s l = .ok () := by
        intro l
        induction l with
        | nil => intro _; rfl
        | cons d l ih =>
          intro hl
          obtain ⟨D, N, hh⟩ := still_free hi (hl d List.mem_cons_self)
          rw [assertHeap.goFree, sanityFree_ok hf hh, Res.bind_ok]
          exact ih (fun e he => hl e (List.mem_cons_of_mem _ he))
      rw [h1 _ (fun _ h => h), Res.bind_ok, h2 _ (fun _ h => List.mem_of_mem_take h)]
  · rfl

/-- An allocation that gets memory. The rest of the memory in use stays as it was. -/
theorem call_open {b N guard size fresh : Nat} {ans : Answer} (hb : ans.base = b) (hN : 0 < N) (hl : Legal s ans N) (hf : Unused s fresh) (h1 : b ≤ guard) (h2 : guard + 20 + size ≤ b + N) :
    (cfg.allocLimit ≠ 0 ∧ (do let (d, s) ← build b guard size fresh (realMalloc N ans s); mallocB cfg d s) = .abort) ∨
    ∃ s', (do let (d, s) ← build b guard size fresh (realMalloc N ans s); mallocB cfg d s) = .ok (guard + 16, s') ∧ HInv cfg (still s' (.take (guard + 16) size :: evs)) ∧
      ∀ x, (∃ r ∈ s.real, r.1 ≤ x ∧ x < r.1 + r.2) → s'.mem x = s.mem x := by
  obtain ⟨d, s1, k1, k2, k3, _, k4⟩ := inv_open hi hb hN hl hf h1 h2
  rw [k1, Res.bind_ok]
  simp only
  obtain ⟨D, hD, hlen, ⟨_, k5, _, k6⟩ | ⟨s2, k5, k6, k7, k8, k9⟩⟩ := inv_account k2 (d := d) (n := size) List.mem_cons_self
  · exact .inl ⟨k5, k6⟩
  · have e : D = ⟨guard, b, size⟩ := by
      have := hD.symm.trans k3; injection this
    subst e
    refine .inr ⟨s2, k5, ?_, ?_⟩
    · have e : ([(d, size)] : List (Nat × Nat)).erase (d, size) = [] := by simp
      simp only [e] at k6
      exact k6
    · intro x hx
      have h := k4 x hx
      rw [← h]
      refine k9 x ?_
      obtain ⟨r, hr, q1, q2⟩ := hx
      have := hl.free r hr
      simp only
      omega

/-- The program gives back a block. -/
theorem call_close {p n : Nat} (h : (p, n) ∈ blocks evs) {s' : St} :
    (do
      let (d, s) ← freeA cfg p s
      let (e, s) ← freeB cfg d s
      match e with
      | none => Res.ok s
      | some e => freeC cfg e s) = .ok s' → HInv cfg (still s' (.give p :: evs)) ∧ ∀ q k, (q, k) ∈ blocks evs → q ≠ p → ∀ x, q ≤ x → x < q + k → s'.mem x = s.mem x := by
  intro hrun
  obtain ⟨d, D, N, s1, hd, hD, hp, hn, r1, r2, r3, k1, k2, _, _, k3⟩ := inv_freeA (cfg := cfg) hi (still_has hi h)
  have hframe : ∀ q k, (q, k) ∈ blocks evs → q ≠ p → ∀ x, q ≤ x → x < q + k → s1.mem x = s.mem x := by
    intro q k hq hne x h1 h2
    refine k3 x ?_
    obtain ⟨e, E, M, he, hE1, hE2, hh, _⟩ := still_block hi hq
    have hned : e ≠ d := by
      rintro rfl
      have := hh.1.symm.trans hD; injection this with this; subst this; omega
    have hb : E.base ≠ D.base := fun hb => hned (hi.inj e d E D (.inl he) (.inl hd) hh.1 hD hb)
    obtain ⟨_, g2, g3, g4, _⟩ := hh
    rcases hi.apart.two g2 r1 with e | e
    · injection e with e _; exact absurd e hb
    · simp only at e; omega
  simp only at k1
  rw [k1, Res.bind_ok] at hrun
  simp only at hrun
  obtain ⟨e, s2, k4, k5, k6, _⟩ := inv_freeB k2 (d := d) (p := p) List.mem_cons_self
  simp only at k4
  rw [k4, Res.bind_ok] at hrun
  have ec : ([(d, p)] : List (Nat × Nat)).erase (d, p) = [] := by simp
  simp only [ec] at k5
  cases e with
  | none =>
    simp only at hrun
    injection hrun with hrun; subst hrun
    refine ⟨k5, ?_⟩
    rw [k6]; exact hframe
  | some e =>
    simp only at hrun
    have hs : sanityFree cfg e s2 = .ok () := by
      unfold Heap.freeC at hrun
      obtain ⟨x, _, h1⟩ := Res.bind_eq_ok.1 hrun
      obtain ⟨u, h1, _⟩ := Res.bind_eq_ok.1 h1
      exact h1
    obtain ⟨s3, k7, k8, k9, _⟩ := inv_freeC k5 (d := e) (by simp) hs
    simp only at k7
    rw [k7] at hrun
    injection hrun with hrun; subst hrun
    have ee : (((some e : Option Nat).toList ++ []) : List Nat).erase e = [] := by simp
    simp only [ee] at k8
    refine ⟨k8, ?_⟩
    rw [k9]
    simp only [k6]
    exact hframe

/-- This goes well. -/
theorem call_close_ok (hf : cfg.doFill = false) {p n : Nat} (h : (p, n) ∈ blocks evs) :
    ∃ s', (do
      let (d, s) ← freeA cfg p s
      let (e, s) ← freeB cfg d s
      match e with
      | none => Res.ok s
      | some e => freeC cfg e s) = .ok s' := by
  obtain ⟨d, D, N, s1, hd, hD, hp, hn, r1, r2, r3, k1, k2, _, _, k3⟩ := inv_freeA (cfg := cfg) hi (still_has hi h)
  simp only at k1
  rw [k1, Res.bind_ok]
  simp only
  obtain ⟨e, s2, k4, k5, k6, _⟩ := inv_freeB k2 (d := d) (p := p) List.mem_cons_self
  simp only at k4
  rw [k4, Res.bind_ok]
  cases e with
  | none => exact ⟨_, rfl⟩
  | some e =>
    simp only
    obtain ⟨D, N, hh⟩ := k5.leaving (d := e) (by simp)
    obtain ⟨s3, k7, _⟩ := inv_freeC k5 (d := e) (by simp) (sanityFree_ok hf hh)
    exact ⟨s3, k7⟩

/-! ### The functions -/

theorem malloc_spec {size fresh : Nat} {ans : Answer} (hr : Room s (16 + size + 4) ans fresh) {p : Nat} {s' : St} (h : malloc cfg size ans fresh s = .ok (p, s')) :
    p = ans.base + 16 ∧ HInv cfg (still s' (.take p size :: evs)) ∧ ∀ x, (∃ r ∈ s.real, r.1 ≤ x ∧ x < r.1 + r.2) → s'.mem x = s.mem x := by
  obtain ⟨hN, hl, hf⟩ := hr
  unfold Heap.malloc at h
  obtain ⟨_, _, h⟩ := Res.bind_eq_ok.1 h
  unfold Heap.mallocA at h
  rw [Nat.mod_eq_of_lt hN] at h
  rcases call_open hi rfl (show 0 < 16 + size + 4 by omega) hl hf (Nat.le_refl _) (show ans.base + 20 + size ≤ ans.base + (16 + size + 4) by omega) with ⟨_, k⟩ | ⟨s2, k1, k2, k3⟩
  · rw [k] at h; cases h
  · rw [k1] at h
    injection h with h
    injection h with h1 h2
    subst h1 h2
    exact ⟨rfl, k2, k3⟩

theorem malloc_ok (hfill : cfg.doFill = false) (hlim : cfg.allocLimit = 0) {size fresh : Nat} {ans : Answer} (hr : Room s (16 + size + 4) ans fresh) :
    ∃ s', malloc cfg size ans fresh s = .ok (ans.base + 16, s') := by
  obtain ⟨hN, hl, hf⟩ := hr
  unfold Heap.malloc
  rw [enter_ok hi hfill, Res.bind_ok]
  unfold Heap.mallocA
  rw [Nat.mod_eq_of_lt hN]
  rcases call_open hi rfl (show 0 < 16 + size + 4 by omega) hl hf (Nat.le_refl _) (show ans.base + 20 + size ≤ ans.base + (16 + size + 4) by omega) with ⟨k, _⟩ | ⟨s2, k1, _⟩
  · exact absurd hlim k
  · exact ⟨s2, k1⟩

theorem aligned_spec {align size fresh : Nat} {ans : Answer} (ha : 0 < align) (hr : Room s (internalSpace align + size + 4) ans fresh) {p : Nat} {s' : St}
    (h : alignedAlloc cfg align size ans fresh s = .ok (p, s')) :
    p = ans.base + internalSpace align ∧ HInv cfg (still s' (.take p size :: evs)) ∧ ∀ x, (∃ r ∈ s.real, r.1 ≤ x ∧ x < r.1 + r.2) → s'.mem x = s.mem x := by
  obtain ⟨hN, hl, hf⟩ := hr
  have hsp := internalSpace_ge ha
  unfold Heap.alignedAlloc at h
  obtain ⟨_, _, h⟩ := Res.bind_eq_ok.1 h
  unfold Heap.alignedA at h
  rw [if_neg (by omega), Nat.mod_eq_of_lt hN] at h
  rcases call_open hi (guard := ans.base + internalSpace align - 16) rfl (show 0 < internalSpace align + size + 4 by omega) hl hf (by omega)
    (show ans.base + internalSpace align - 16 + 20 + size ≤ ans.base + (internalSpace align + size + 4) by omega) with ⟨_, k⟩ | ⟨s2, k1, k2, k3⟩
  · rw [k] at h; cases h
  · rw [k1] at h
    injection h with h
    injection h with h1 h2
    have e : ans.base + internalSpace align - 16 + 16 = ans.base + internalSpace align := by omega
    rw [e] at h1 k2
    subst h1 h2
    exact ⟨rfl, k2, k3⟩

theorem aligned_ok (hfill : cfg.doFill = false) (hlim : cfg.allocLimit = 0) {align size fresh : Nat} {ans : Answer} (ha : 0 < align) (hr : Room s (internalSpace align + size + 4) ans fresh) :
    ∃ p s', alignedAlloc cfg align size ans fresh s = .ok (p, s') := by
  obtain ⟨hN, hl, hf⟩ := hr
  have hsp := internalSpace_ge ha
  unfold Heap.alignedAlloc
  rw [enter_ok hi hfill, Res.bind_ok]
  unfold Heap.alignedA
  rw [if_neg (by omega), Nat.mod_eq_of_lt hN]
  rcases call_open hi (guard := ans.base + internalSpace align - 16) rfl (show 0 < internalSpace align + size + 4 by omega) hl hf (by omega)
    (show ans.base + internalSpace align - 16 + 20 + size ≤ ans.base + (internalSpace align + size + 4) by omega) with ⟨k, _⟩ | ⟨s2, k1, _⟩
  · exact absurd hlim k
  · exact ⟨_, s2, k1⟩

theorem free_spec {p n : Nat} (hp : (p, n) ∈ blocks evs) {s' : St} (h : free cfg p s = .ok s') :
    HInv cfg (still s' (.give p :: evs)) ∧ ∀ q k, (q, k) ∈ blocks evs → q ≠ p → ∀ x, q ≤ x → x < q + k → s'.mem x = s.mem x := by
  obtain ⟨d, D, N, _, hp1, _⟩ := still_block hi hp
  unfold Heap.free at h
  rw [if_neg (by omega)] at h
  obtain ⟨_, _, h⟩ := Res.bind_eq_ok.1 h
  exact call_close hi hp h

theorem free_ok (hfill : cfg.doFill = false) {p n : Nat} (hp : (p, n) ∈ blocks evs) : ∃ s', free cfg p s = .ok s' := by
  obtain ⟨d, D, N, _, hp1, _⟩ := still_block hi hp
  unfold Heap.free
  rw [if_neg (by omega), enter_ok hi hfill, Res.bind_ok]
  exact call_close_ok hi hfill hp

/-- The memory of a block is there. -/
theorem still_mapped {p n : Nat} (h : (p, n) ∈ blocks evs) {a k : Nat} (h1 : p ≤ a) (h2 : a + k ≤ p + n) : s.mapped a k = true := by
  obtain ⟨d, D, N, _, hp1, hn1, hh, _⟩ := still_block hi h
  obtain ⟨g1, g2, g3, g4, _⟩ := hh
  exact mapped_of g2 (by simp only; omega) (by simp only; omega)

theorem still_real {p n : Nat} (h : (p, n) ∈ blocks evs) {x : Nat} (h1 : p - 16 ≤ x) (h2 : x < p + n + 4) : ∃ r ∈ s.real, r.1 ≤ x ∧ x < r.1 + r.2 := by
  obtain ⟨d, D, N, _, hp1, hn1, hh, _⟩ := still_block hi h
  obtain ⟨g1, g2, g3, g4, _⟩ := hh
  exact ⟨_, g2, by simp only; omega, by simp only; omega⟩

/-- The program's blocks are apart, with their guards. -/
theorem still_apart {p n q k : Nat} (hp : (p, n) ∈ blocks evs) (hq : (q, k) ∈ blocks evs) : (p = q ∧ n = k) ∨ p + n + 20 ≤ q ∨ q + k + 20 ≤ p := by
  obtain ⟨d, D, N, hd, hp1, hn1, hh, _⟩ := still_block hi hp
  obtain ⟨e, E, M, he, hq1, hk1, hg, _⟩ := still_block hi hq
  by_cases hne : d = e
  · subst hne
    have := hh.1.symm.trans hg.1; injection this with this; subst this
    exact .inl ⟨by omega, by omega⟩
  · have := hi.blocksApart (.inl hd) (.inl he) hh.1 hg.1 hne
    omega

theorem calloc_spec {num size fresh : Nat} {ans : Answer} (hr : Room s (16 + size * num + 4) ans fresh) {p : Nat} {s' : St} (h : calloc cfg num size ans fresh s = .ok (p, s')) :
    p = ans.base + 16 ∧ HInv cfg (still s' (.take p (size * num) :: evs)) ∧ (∀ x, (∃ r ∈ s.real, r.1 ≤ x ∧ x < r.1 + r.2) → s'.mem x = s.mem x) ∧ ∀ x, p ≤ x → x < p + size * num → s'.mem x = 0 := by
  unfold Heap.calloc at h
  obtain ⟨_, _, h⟩ := Res.bind_eq_ok.1 h
  simp only at h
  rw [Nat.mod_eq_of_lt (by have := hr.1; omega)] at h
  obtain ⟨⟨p', s1⟩, h1, h⟩ := Res.bind_eq_ok.1 h
  obtain ⟨k1, k2, k3⟩ := malloc_spec hi hr h1
  simp only at h
  obtain ⟨s2, h2, h⟩ := Res.bind_eq_ok.1 h
  injection h with h
  injection h with e1 e2
  subst e1 e2
  unfold clear at h2
  split at h2
  · injection h2 with h2
    subst h2
    refine ⟨k1, ?_, ?_, fun x q1 q2 => if_pos ⟨q1, q2⟩⟩
    · exact inv_write (w := still s1 (.take p' (size * num) :: evs)) k2 (p := p') (n := size * num) (still_has k2 List.mem_cons_self) (fun x hx => if_neg hx)
    · intro x hx
      rw [← k3 x hx]
      refine if_neg ?_
      obtain ⟨r, hr', q1, q2⟩ := hx
      have := hr.2.1.free r hr'
      omega
  · cases h2

theorem calloc_ok (hfill : cfg.doFill = false) (hlim : cfg.allocLimit = 0) {num size fresh : Nat} {ans : Answer} (hr : Room s (16 + size * num + 4) ans fresh) :
    ∃ p s', calloc cfg num size ans fresh s = .ok (p, s') := by
  unfold Heap.calloc
  rw [enter_ok hi hfill, Res.bind_ok]
  simp only
  rw [Nat.mod_eq_of_lt (by have := hr.1; omega)]
  obtain ⟨s1, h1⟩ := malloc_ok hi hfill hlim hr
  obtain ⟨_, k2, k3⟩ := malloc_spec hi hr h1
  rw [h1, Res.bind_ok]
  simp only
  unfold clear
  rw [if_pos (still_mapped k2 List.mem_cons_self (Nat.le_refl _) (Nat.le_refl _))]
  exact ⟨_, _, rfl⟩

/-- A block is still there after an allocation. -/
theorem realloc_found {size fresh : Nat} {ans : Answer} (hr : Room s (16 + size + 4) ans fresh) {q : Nat} {s' : St} (h : malloc cfg size ans fresh s = .ok (q, s')) {p n d : Nat}
    (hp : (p, n) ∈ blocks evs) (hd : load s (p - 16) 8 = .ok d) : ∃ D, descOf s' d = .ok D ∧ D.len = n := by
  obtain ⟨_, k2, k3⟩ := malloc_spec hi hr h
  obtain ⟨d', D', N', _, e1, e2, hh, hl, hD⟩ := still_block k2 (p := p) (n := n) (List.mem_cons_of_mem _ hp)
  have : load s' (p - 16) 8 = load s (p - 16) 8 := by
    obtain ⟨d0, D0, N0, _, f1, f2, _, f3, _⟩ := still_block hi hp
    unfold load at hl f3 ⊢
    split at hl <;> split at f3
    · rename_i g1 g2
      rw [if_pos g1, if_pos g2]
      refine congrArg Res.ok (word_congr _ _ (fun x q1 q2 => k3 x (still_real hi hp q1 (by omega))))
    · cases f3
    · cases hl
    · cases hl
  rw [this, hd] at hl
  injection hl with hl
  subst hl
  exact ⟨D', hD, e2⟩

theorem realloc_spec {p size fresh : Nat} {ans : Answer} {n : Nat} (hp : (p, n) ∈ blocks evs) (hr : Room s (16 + size + 4) ans fresh) {q : Nat} {s' : St}
    (h : realloc cfg p size ans fresh s = .ok (q, s')) :
    (size ≤ n ∧ q = p ∧ s' = s) ∨ (n < size ∧ q = ans.base + 16 ∧ HInv cfg (still s' (.give p :: .take q size :: evs)) ∧ q ≠ p ∧
      (∀ r k, (r, k) ∈ blocks evs → r ≠ p → ∀ x, r ≤ x → x < r + k → s'.mem x = s.mem x) ∧ ∀ i, i < n → s'.mem (q + i) = s.mem (p + i)) := by
  obtain ⟨d, D, N, _, f1, f2, f3, f4, f5⟩ := still_block hi hp
  unfold Heap.realloc at h
  obtain ⟨_, _, h⟩ := Res.bind_eq_ok.1 h
  rw [if_neg (by omega), f4, Res.bind_ok, f5, Res.bind_ok, f2] at h
  split at h
  · rename_i hs
    injection h with h
    injection h with e1 e2
    exact .inl ⟨hs, e1.symm, e2.symm⟩
  · rename_i hs
    obtain ⟨⟨q', s1⟩, h1, h⟩ := Res.bind_eq_ok.1 h
    obtain ⟨k1, k2, k3⟩ := malloc_spec hi hr h1
    obtain ⟨D1, k4, k5⟩ := realloc_found hi hr h1 hp f4
    simp only at h
    rw [k4, Res.bind_ok, k5, if_pos (by omega)] at h
    obtain ⟨s2, h2, h⟩ := Res.bind_eq_ok.1 h
    obtain ⟨s3, h3, h⟩ := Res.bind_eq_ok.1 h
    injection h with h
    injection h with e1 e2
    subst e1 e2
    have hpq : p ≠ q' ∧ (p + n + 20 ≤ q' ∨ q' + size + 20 ≤ p) := by
      rcases still_apart k2 (p := p) (n := n) (q := q') (k := size) (List.mem_cons_of_mem _ hp) List.mem_cons_self with e | e
      · omega
      · omega
    unfold copy at h2
    split at h2
    · injection h2 with h2
      subst h2
      have k6 := inv_write (w := still s1 (.take q' size :: evs)) k2 (p := q') (n := size) (still_has k2 List.mem_cons_self)
        (m := fun x => if q' ≤ x ∧ x < q' + n then s1.mem (p + (x - q')) else s1.mem x) (fun x hx => if_neg (by omega))
      obtain ⟨k7, k8⟩ := free_spec k6 (p := p) (n := n) (List.mem_cons_of_mem _ hp) h3
      refine .inr ⟨by omega, k1, k7, fun e => hpq.1 e.symm, ?_, ?_⟩
      · intro r k hrk hne x x1 x2
        rw [k8 r k (List.mem_cons_of_mem _ hrk) hne x x1 x2]
        rw [← k3 x (still_real hi hrk (by omega) (by omega))]
        refine if_neg ?_
        rcases still_apart k2 (p := r) (n := k) (q := q') (k := size) (List.mem_cons_of_mem _ hrk) List.mem_cons_self with e | e
        · obtain ⟨e1, e2⟩ := e
          have hm := still_real hi hrk (x := r) (by omega) (by omega)
          obtain ⟨rr, hrr, z1, z2⟩ := hm
          have := hr.2.1.free rr hrr
          omega
        · omega
      · intro i hi'
        rw [k8 q' size List.mem_cons_self (fun e => hpq.1 e.symm) (q' + i) (by omega) (by omega)]
        show (if q' ≤ q' + i ∧ q' + i < q' + n then s1.mem (p + (q' + i - q')) else _) = _
        rw [if_pos ⟨by omega, by omega⟩, show q' + i - q' = i by omega]
        exact k3 _ (still_real hi hp (by omega) (by omega))
    · cases h2

theorem realloc_ok (hfill : cfg.doFill = false) (hlim : cfg.allocLimit = 0) {p size fresh : Nat} {ans : Answer} (hp : p = 0 ∨ ∃ n, (p, n) ∈ blocks evs) (hr : Room s (16 + size + 4) ans fresh) :
    ∃ q s', realloc cfg p size ans fresh s = .ok (q, s') := by
  unfold Heap.realloc
  rw [enter_ok hi hfill, Res.bind_ok]
  obtain ⟨s1, h1⟩ := malloc_ok hi hfill hlim hr
  rcases hp with rfl | ⟨n, hp⟩
  · rw [if_pos rfl]; exact ⟨_, _, h1⟩
  · obtain ⟨d, D, N, _, f1, f2, f3, f4, f5⟩ := still_block hi hp
    rw [if_neg (by omega), f4, Res.bind_ok, f5, Res.bind_ok, f2]
    split
    · exact ⟨_, _, rfl⟩
    · rename_i hs
      obtain ⟨k1, k2, k3⟩ := malloc_spec hi hr h1
      obtain ⟨D1, k4, k5⟩ := realloc_found hi hr h1 hp f4
      rw [h1, Res.bind_ok]
      simp only
      rw [k4, Res.bind_ok, k5, if_pos (by omega)]
      unfold copy
      rw [if_pos ⟨still_mapped k2 (p := p) (n := n) (List.mem_cons_of_mem _ hp) (Nat.le_refl _) (Nat.le_refl _), still_mapped k2 List.mem_cons_self (Nat.le_refl _) (by omega)⟩, Res.bind_ok]
      have k6 := inv_write (w := still s1 (.take (ans.base + 16) size :: evs)) k2 (p := ans.base + 16) (n := size) (still_has k2 List.mem_cons_self)
        (m := fun x => if ans.base + 16 ≤ x ∧ x < ans.base + 16 + n then s1.mem (p + (x - (ans.base + 16))) else s1.mem x) (fun x hx => if_neg (by omega))
      obtain ⟨s3, h3⟩ := free_ok k6 hfill (p := p) (n := n) (List.mem_cons_of_mem _ hp)
      rw [h3, Res.bind_ok]
      exact ⟨_, _, rfl⟩

end

/-! ### Histories -/

/-- What a call does. -/
theorem call_spec {cfg : Config} {s s' : St} {evs evs' : List HeapEv} {c : HeapCall} {q : Nat} (hi : HInv cfg (still s evs)) (hf : c.Fair s evs) (h : c.run cfg s evs = .ok (s', q, evs')) :
    HInv cfg (still s' evs') := by
  cases c with
  | malloc size ans fresh =>
    obtain ⟨⟨p, s1⟩, h1, h2⟩ := Res.bind_eq_ok.1 h
    simp only at h2
    injection h2 with h2; injection h2 with e1 e2; injection e2 with e2 e3; subst e1 e2 e3
    exact (malloc_spec hi hf h1).2.1
  | aligned align size ans fresh =>
    obtain ⟨⟨p, s1⟩, h1, h2⟩ := Res.bind_eq_ok.1 h
    simp only at h2
    injection h2 with h2; injection h2 with e1 e2; injection e2 with e2 e3; subst e1 e2 e3
    exact (aligned_spec hi hf.1 hf.2 h1).2.1
  | calloc num size ans fresh =>
    obtain ⟨⟨p, s1⟩, h1, h2⟩ := Res.bind_eq_ok.1 h
    simp only at h2
    injection h2 with h2; injection h2 with e1 e2; injection e2 with e2 e3; subst e1 e2 e3
    exact (calloc_spec hi hf h1).2.1
  | realloc p size ans fresh =>
    obtain ⟨⟨r, s1⟩, h1, h2⟩ := Res.bind_eq_ok.1 h
    simp only at h2
    injection h2 with h2; injection h2 with e1 e2; injection e2 with e2 e3; subst e1 e2 e3
    rcases hf.1 with hp | ⟨n, hp⟩
    · subst hp
      rw [if_pos rfl]
      unfold Heap.realloc at h1
      obtain ⟨_, _, h1⟩ := Res.bind_eq_ok.1 h1
      rw [if_pos rfl] at h1
      exact (malloc_spec hi hf.2 h1).2.1
    · obtain ⟨d, D, N, _, f1, _⟩ := still_block hi hp
      rw [if_neg (by omega)]
      rcases realloc_spec hi hp hf.2 h1 with ⟨_, e1, e2⟩ | ⟨_, _, k, hne, _⟩
      · subst e1 e2; rw [if_pos rfl]; exact hi
      · rw [if_neg hne]; exact k
  | free p =>
    obtain ⟨s1, h1, h2⟩ := Res.bind_eq_ok.1 h
    injection h2 with h2; injection h2 with e1 e2; injection e2 with e2 e3; subst e1 e2 e3
    rcases hf with hp | ⟨n, hp⟩
    · subst hp
      rw [if_pos rfl]
      injection h1 with h1; subst h1; exact hi
    · obtain ⟨d, D, N, _, f1, _⟩ := still_block hi hp
      rw [if_neg (by omega)]
      exact (free_spec hi hp h1).1
  | write a v =>
    injection h with h2; injection h2 with e1 e2; injection e2 with e2 e3; subst e1 e2 e3
    obtain ⟨p, n, hp, h1, h2⟩ := hf
    exact inv_write hi (still_has hi hp) (fun x hx => if_neg (by rintro rfl; exact hx ⟨h1, h2⟩))

theorem HeapHist.inv {cfg : Config} {s : St} {evs : List HeapEv} (h : HeapHist cfg s evs) : HInv cfg (still s evs) := by
  induction h with
  | start mem => exact inv_start cfg mem
  | step _ hf hrun hi => exact call_spec hi hf hrun

/-! ### Misuse -/

theorem word_inj {m m' : Nat → Byte} : ∀ (n a : Nat), word m a n = word m' a n → ∀ x, a ≤ x → x < a + n → m x = m' x
  | 0, _, _, _, _, _ => by omega
  | n + 1, a, h, x, h1, h2 => by
      rw [word, word] at h
      have b1 := (m a).isLt
      have b2 := (m' a).isLt
      by_cases hx : x = a
      · subst hx; exact BitVec.eq_of_toNat_eq (by omega)
      · exact word_inj n (a + 1) (by omega) x (by omega) (by omega)

/-- The state of a block, whatever was written. -/
theorem getState_any {s : St} {d : Nat} {D : Desc} {N st : Nat} (h : Held s d D N st) (m : Nat → Byte) :
    getState d { s with mem := m } = .abort ∨ ∃ v, getState d { s with mem := m } = .ok v ∧ word m (D.data + 16 + D.len) 4 = v ∧ word m (D.data + 8) 4 = v := by
  obtain ⟨h1, h2, h3, h4, h5, h6, h7⟩ := h
  unfold getState descOf load
  simp only
  rw [h1]
  simp only
  rw [Res.bind_ok, if_pos (mapped_of (s := { s with mem := m }) h2 (by simp only; omega) (by simp only; omega)), Res.bind_ok,
    if_pos (mapped_of (s := { s with mem := m }) h2 (by simp only; omega) (by simp only; omega)), Res.bind_ok]
  split
  · exact .inl rfl
  · rename_i h
    exact .inr ⟨_, rfl, rfl, (Decidable.not_not.1 h).symm⟩

/-- A byte of a guard word was overwritten. -/
theorem getState_bad {s : St} {d : Nat} {D : Desc} {N : Nat} (h : Held s d D N memAllocated) {m : Nat → Byte} {x : Nat}
    (hx : (D.data + 8 ≤ x ∧ x < D.data + 12) ∨ (D.data + 16 + D.len ≤ x ∧ x < D.data + 20 + D.len)) (hne : m x ≠ s.mem x) :
    getState d { s with mem := m } = .abort ∨ ∃ v, getState d { s with mem := m } = .ok v ∧ v ≠ memAllocated := by
  rcases getState_any h m with k | ⟨v, k1, k2, k3⟩
  · exact .inl k
  · refine .inr ⟨v, k1, ?_⟩
    rintro rfl
    obtain ⟨_, _, _, _, _, g6, g7⟩ := h
    rcases hx with hx | hx
    · exact hne (word_inj 4 (D.data + 8) (k3.trans g6.symm) x hx.1 (by omega))
    · exact hne (word_inj 4 (D.data + 16 + D.len) (k2.trans g7.symm) x hx.1 (by omega))

theorem goHeap_bad {cfg : Config} {s s' : St} {evs : List HeapEv} {m : Nat → Byte} (hi : HInv cfg (still s evs)) (hs : s' = { s with mem := m }) {d : Nat}
    (hb : getState d s' = .abort ∨ ∃ v, getState d s' = .ok v ∧ v ≠ memAllocated) : ∀ l, (∀ e ∈ l, e ∈ s.heap) → d ∈ l → assertHeap.goHeap s' l = .abort := by
  intro l
  induction l with
  | nil => intro _ h; cases h
  | cons e l ih =>
    intro hl hd
    rw [assertHeap.goHeap]
    by_cases he : e = d
    · subst he
      rcases hb with k | ⟨v, k, hv⟩
      · rw [k]; rfl
      · rw [k, Res.bind_ok, if_pos hv]
    · obtain ⟨E, N, hh⟩ := hi.held e (.inl (hl e List.mem_cons_self))
      rcases getState_any hh m with k | ⟨v, k, _⟩
      · rw [hs, k]; rfl
      · rw [hs, k, Res.bind_ok]
        split
        · rfl
        · rw [← hs]
          refine ih (fun e he => hl e (List.mem_cons_of_mem _ he)) ?_
          rcases List.mem_cons.1 hd with h | h
          · exact absurd h.symm he
          · exact h

/-- Somebody wrote over the guard words of a block. -/
theorem enter_bad {cfg : Config} {s : St} {evs : List HeapEv} (hi : HInv cfg (still s evs)) (hl : 2 ≤ cfg.level) {p n : Nat} (hp : (p, n) ∈ blocks evs) {m : Nat → Byte} {x : Nat}
    (hx : (p - 8 ≤ x ∧ x < p - 4) ∨ (p + n ≤ x ∧ x < p + n + 4)) (hne : m x ≠ s.mem x) : enter cfg { s with mem := m } = .abort := by
  obtain ⟨d, D, N, hd, hp1, hn1, hh, _⟩ := still_block hi hp
  have hb := getState_bad hh (m := m) (x := x) (by omega) hne
  unfold enter assertHeap
  rw [if_pos hl, if_neg (by omega), goHeap_bad hi rfl hb _ (fun _ h => h) hd]
  rfl

theorem free_bad {cfg : Config} {s : St} {evs : List HeapEv} (hi : HInv cfg (still s evs)) {p n : Nat} (hp : (p, n) ∈ blocks evs) {m : Nat → Byte} {x : Nat}
    (hx : (p - 8 ≤ x ∧ x < p - 4) ∨ (p + n ≤ x ∧ x < p + n + 4)) (hne : m x ≠ s.mem x) (hg : ∀ y, p - 16 ≤ y → y < p - 8 → m y = s.mem y) : free cfg p { s with mem := m } = .abort := by
  obtain ⟨d, D, N, hd, hp1, hn1, hh, hl, _⟩ := still_block hi hp
  unfold Heap.free
  rw [if_neg (by omega)]
  by_cases hlev : 2 ≤ cfg.level
  · rw [enter_bad hi hlev hp hx hne]; rfl
  · have : enter cfg { s with mem := m } = .ok () := by unfold enter; rw [if_neg hlev]
    rw [this, Res.bind_ok]
    unfold Heap.freeA
    have hl' : load { s with mem := m } (p - 16) 8 = .ok d := by
      unfold load at hl ⊢
      split at hl
      · rename_i hm
        rw [if_pos (show St.mapped { s with mem := m } (p - 16) 8 = true from hm), ← hl]
        exact congrArg Res.ok (word_congr _ _ (fun y h1 h2 => hg y h1 (by omega)))
      · cases hl
    rw [hl', Res.bind_ok]
    rcases getState_bad hh (m := m) (x := x) (by omega) hne with k | ⟨v, k, hv⟩
    · rw [k]; rfl
    · rw [k, Res.bind_ok, if_pos hv]; rfl

/-- The block of a descriptor that is marked as free. -/
theorem freeA_free {cfg : Config} {s : St} {d : Nat} {D : Desc} {N : Nat} (hh : Held s d D N memFree) : freeA cfg (D.data + 16) s = .abort := by
  have hg := getState_held hh
  obtain ⟨h1, h2, h3, h4, h5, h6, h7⟩ := hh
  unfold Heap.freeA
  have : load s (D.data + 16 - 16) 8 = .ok d := by
    unfold load
    rw [Nat.add_sub_cancel, if_pos (mapped_of h2 h3 (by simp only; omega)), h5]
  rw [this, Res.bind_ok, hg, Res.bind_ok, if_pos (by decide)]

theorem HInv.recent {cfg : Config} {w : HeapWorld} (hi : HInv cfg w) {p : Nat} (hp : p ∈ recent cfg.freelistmax w.evs) : ∃ d D N, d ∈ w.s.freelist ∧ D.data + 16 = p ∧ Held w.s d D N memFree := by
  have h : p ∈ w.s.freelist.map (fun d => (blk w.s d).1) := by
    rw [hi.quarantine]
    unfold Spec.recent at hp
    split at hp
    · rename_i h
      rw [hi.bound.2 h, List.take_length]; exact hp
    · rename_i h
      rw [hi.bound.1 (by omega)]
      rw [← List.take_take, List.take_length]; exact hp
  obtain ⟨d, hd, he⟩ := List.mem_map.1 h
  obtain ⟨D, N, hh⟩ := hi.held d (.inr (.inr (.inl hd)))
  have hst : stateOf w d = memFree := by unfold stateOf; rw [if_pos (.inr (.inl hd))]
  rw [hst] at hh
  rw [blk_of hh.1] at he
  exact ⟨d, D, N, hd, he, hh⟩

end Pstack.Spec
