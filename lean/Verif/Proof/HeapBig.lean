import Verif.Proof.Heap
/-
The big blocks that are remembered (heap.c:150-160).
-/
namespace Pstack.Spec
open Pstack.Heap

theorem store_frame {s s' : St} {a v n : Nat} (h : store s a v n = .ok s') : s'.big = s.big ∧ s'.numbig = s.numbig ∧ s'.desc = s.desc := by
  unfold store at h
  split at h
  · cases h; exact ⟨rfl, rfl, rfl⟩
  · cases h

theorem setState_frame {s s' : St} {d st : Nat} (h : setState d st s = .ok s') : s'.big = s.big ∧ s'.numbig = s.numbig ∧ s'.desc = s.desc := by
  unfold setState at h
  obtain ⟨x, _, h⟩ := Res.bind_eq_ok.1 h
  obtain ⟨s1, h1, h⟩ := Res.bind_eq_ok.1 h
  obtain ⟨a1, a2, a3⟩ := store_frame h1
  obtain ⟨b1, b2, b3⟩ := store_frame h
  exact ⟨b1.trans a1, b2.trans a2, b3.trans a3⟩

theorem fill_frame {cfg : Config} {s s' : St} {a n f : Nat} (h : fill cfg a n f s = .ok s') : s'.big = s.big ∧ s'.numbig = s.numbig ∧ s'.desc = s.desc := by
  unfold fill at h
  split at h
  · cases h; exact ⟨rfl, rfl, rfl⟩
  · dsimp only at h
    generalize (if n % 2 ^ 32 < 2 ^ 31 then n % 2 ^ 32 else 0) = k at h
    split at h
    · cases h; exact ⟨rfl, rfl, rfl⟩
    · cases h

theorem realMalloc_frame {s : St} {n : Nat} {a : Answer} : (realMalloc n a s).big = s.big ∧ (realMalloc n a s).numbig = s.numbig ∧ (realMalloc n a s).desc = s.desc ∧ (realMalloc n a s).pool = s.pool := by
  unfold realMalloc
  split <;> exact ⟨rfl, rfl, rfl, rfl⟩

theorem realFree_frame {s s' : St} {b : Nat} (h : realFree b s = .ok s') : s'.big = s.big ∧ s'.numbig = s.numbig ∧ s'.desc = s.desc := by
  unfold realFree at h
  split at h
  · cases h; exact ⟨rfl, rfl, rfl⟩
  · cases h

theorem build_frame {s s' : St} {base guard size fresh d : Nat} (h : build base guard size fresh s = .ok (d, s')) :
    s'.big = s.big ∧ s'.numbig = s.numbig ∧ d = s.pool.headD fresh ∧ ∀ e, e ≠ d → s'.desc e = s.desc e := by
  have key : ∀ (k : Nat) (s : St), (do
      let s ← store s guard k 8
      if k = 0 then Res.ub
      else do
        let s := { s with desc := fun x => if x = k then some ⟨guard, base, size⟩ else s.desc x }
        let s ← setState k memAllocated s
        Res.ok (k, s)) = Res.ok (d, s') → s'.big = s.big ∧ s'.numbig = s.numbig ∧ d = k ∧ ∀ e, e ≠ d → s'.desc e = s.desc e := by
    intro k s h
    obtain ⟨s1, h1, h⟩ := Res.bind_eq_ok.1 h
    split at h
    · cases h
    obtain ⟨s2, h2, h⟩ := Res.bind_eq_ok.1 h
    cases h
    obtain ⟨a1, a2, a3⟩ := store_frame h1
    obtain ⟨b1, b2, b3⟩ := setState_frame h2
    refine ⟨b1.trans a1, b2.trans a2, rfl, fun e he => ?_⟩
    rw [b3]
    dsimp only
    rw [if_neg he, a3]
  obtain ⟨mem, real, desc, heap, freelist, pool, big, numbig, fsize, total, maxmem⟩ := s
  cases pool with
  | nil => exact key fresh _ h
  | cons k rest => exact key k ⟨mem, real, desc, heap, freelist, rest, big, numbig, fsize, total, maxmem⟩ h

/-- What a step does to the blocks that are remembered, and to what is known of them. -/
theorem big_step {cfg : Config} {w w' : HeapWorld} (hr : HeapRun cfg w) {a : HeapAct} (hf : a.Fair w) (hrun : a.run cfg w = .ok w') :
    (∀ d ∈ w.s.big, w'.s.desc d = w.s.desc d) ∧
    ((w'.s.big = w.s.big ∧ w'.s.numbig = w.s.numbig ∧ ∀ d D, a = .freeC d → w.s.desc d = some D → ¬(cfg.rememberbigger ≤ D.len ∧ w.s.numbig < cfg.maxbig)) ∨
     ∃ d D, a = .freeC d ∧ w.s.desc d = some D ∧ w'.s.desc d = some D ∧ cfg.rememberbigger ≤ D.len ∧ w.s.numbig < cfg.maxbig ∧ w'.s.big = w.s.big ++ [d] ∧ w'.s.numbig = w.s.numbig + 1) := by
  have hi := hr.inv
  have open_case : ∀ (base guard size fresh n d : Nat) (ans : Answer) (s : St), Unused w.s fresh → build base guard size fresh (realMalloc n ans w.s) = .ok (d, s) →
      (∀ e ∈ w.s.big, s.desc e = w.s.desc e) ∧ s.big = w.s.big ∧ s.numbig = w.s.numbig := by
    intro base guard size fresh n d ans s hu hb
    obtain ⟨c1, c2, c3, c4⟩ := build_frame hb
    obtain ⟨r1, r2, r3, r4⟩ := realMalloc_frame (s := w.s) (n := n) (a := ans)
    refine ⟨fun e he => ?_, c1.trans r1, c2.trans r2⟩
    have hcnt := List.count_pos_iff.2 he
    have honce := hi.once e
    have hne : e ≠ d := by
      rintro rfl
      rw [r4] at c3
      generalize hp : w.s.pool = p at c3
      cases p with
      | nil =>
        have : e = fresh := c3
        subst this
        exact (hi.known e (by unfold tally; omega)).2.2 hu.free
      | cons k rest =>
        have : e = k := c3
        subst this
        have : 0 < w.s.pool.count e := List.count_pos_iff.2 (by rw [hp]; exact .head _)
        unfold tally at honce
        omega
    rw [c4 e hne, r3]
  cases a with
  | mallocA size ans fresh =>
    simp only [HeapAct.run] at hrun
    obtain ⟨⟨d, s⟩, h1, h2⟩ := Res.bind_eq_ok.1 hrun
    cases h2
    obtain ⟨a1, a2, a3⟩ := open_case _ _ _ _ _ _ _ _ hf.2.2 h1
    exact ⟨a1, .inl ⟨a2, a3, fun _ _ k => by cases k⟩⟩
  | alignedA align size ans fresh =>
    simp only [HeapAct.run] at hrun
    obtain ⟨⟨d, s⟩, h1, h2⟩ := Res.bind_eq_ok.1 hrun
    cases h2
    unfold Heap.alignedA at h1
    split at h1
    · cases h1
    obtain ⟨a1, a2, a3⟩ := open_case _ _ _ _ _ _ _ _ hf.2.2.2 h1
    exact ⟨a1, .inl ⟨a2, a3, fun _ _ k => by cases k⟩⟩
  | mallocB d n =>
    simp only [HeapAct.run] at hrun
    obtain ⟨⟨p, s⟩, h1, h2⟩ := Res.bind_eq_ok.1 hrun
    cases h2
    unfold Heap.mallocB at h1
    obtain ⟨x, _, h1⟩ := Res.bind_eq_ok.1 h1
    dsimp only at h1
    split at h1
    · cases h1
    obtain ⟨s1, h3, h1⟩ := Res.bind_eq_ok.1 h1
    cases h1
    obtain ⟨a1, a2, a3⟩ := fill_frame h3
    exact ⟨fun e _ => by rw [a3], .inl ⟨a1, a2, fun _ _ k => by cases k⟩⟩
  | freeA p =>
    simp only [HeapAct.run] at hrun
    obtain ⟨⟨d, s⟩, h1, h2⟩ := Res.bind_eq_ok.1 hrun
    cases h2
    unfold Heap.freeA at h1
    obtain ⟨d', _, h1⟩ := Res.bind_eq_ok.1 h1
    obtain ⟨st, _, h1⟩ := Res.bind_eq_ok.1 h1
    split at h1
    · cases h1
    obtain ⟨x, _, h1⟩ := Res.bind_eq_ok.1 h1
    split at h1
    · cases h1
    obtain ⟨s1, h3, h1⟩ := Res.bind_eq_ok.1 h1
    obtain ⟨s2, h4, h1⟩ := Res.bind_eq_ok.1 h1
    cases h1
    obtain ⟨a1, a2, a3⟩ := fill_frame h3
    obtain ⟨b1, b2, b3⟩ := setState_frame h4
    exact ⟨fun e _ => by rw [b3, a3], .inl ⟨b1.trans a1, b2.trans a2, fun _ _ k => by cases k⟩⟩
  | freeB d p =>
    simp only [HeapAct.run] at hrun
    obtain ⟨⟨e, s⟩, h1, h2⟩ := Res.bind_eq_ok.1 hrun
    cases h2
    unfold Heap.freeB at h1
    obtain ⟨x, _, h1⟩ := Res.bind_eq_ok.1 h1
    split at h1
    · dsimp only at h1
      split at h1 <;> cases h1 <;> exact ⟨fun _ _ => rfl, .inl ⟨rfl, rfl, fun _ _ k => by cases k⟩⟩
    · cases h1
  | freeC d =>
    simp only [HeapAct.run] at hrun
    obtain ⟨s, h1, h2⟩ := Res.bind_eq_ok.1 hrun
    cases h2
    unfold Heap.freeC at h1
    obtain ⟨D, hD, h1⟩ := Res.bind_eq_ok.1 h1
    have hD' : w.s.desc d = some D := by
      unfold descOf at hD
      split at hD
      · cases hD
      · cases hD; assumption
    obtain ⟨_, _, h1⟩ := Res.bind_eq_ok.1 h1
    dsimp only at h1
    by_cases hc : cfg.rememberbigger ≤ D.len ∧ w.s.numbig < cfg.maxbig
    · rw [if_pos hc] at h1
      obtain ⟨f1, f2, f3⟩ := realFree_frame h1
      refine ⟨fun e _ => ?_, .inr ⟨d, D, rfl, hD', ?_, hc.1, hc.2, f1, f2⟩⟩
      · dsimp only; rw [f3]
      · dsimp only; rw [f3]; exact hD'
    · rw [if_neg hc] at h1
      obtain ⟨f1, f2, f3⟩ := realFree_frame h1
      refine ⟨fun e _ => ?_, .inl ⟨f1, f2, fun d' D' k hk => by cases k; rw [hD'] at hk; cases hk; exact hc⟩⟩
      dsimp only; rw [f3]
  | write a v =>
    simp only [HeapAct.run] at hrun
    cases hrun
    exact ⟨fun _ _ => rfl, .inl ⟨rfl, rfl, fun _ _ k => by cases k⟩⟩

theorem big_inv {cfg : Config} {w : HeapWorld} (h : HeapRun cfg w) :
    w.s.numbig = w.s.big.length ∧ w.s.numbig ≤ cfg.maxbig ∧ ∀ d ∈ w.s.big, ∃ D, w.s.desc d = some D ∧ cfg.rememberbigger ≤ D.len := by
  induction h with
  | start mem => exact ⟨rfl, Nat.zero_le _, fun _ h => nomatch h⟩
  | step hr hf hrun ih =>
    obtain ⟨i1, i2, i3⟩ := ih
    obtain ⟨h0, ⟨h1, h2, _⟩ | ⟨d, D, _, hD, hD', h3, h4, h5, h6⟩⟩ := big_step hr hf hrun
    · rw [h1, h2]
      exact ⟨i1, i2, fun d hd => by rw [h0 d hd]; exact i3 d hd⟩
    · rw [h5, h6]
      refine ⟨by rw [i1, List.length_append]; rfl, by omega, fun e he => ?_⟩
      rcases List.mem_append.1 he with he | he
      · rw [h0 e he]; exact i3 e he
      · rw [List.mem_singleton.1 he]; exact ⟨D, hD', h3⟩

end Pstack.Spec
