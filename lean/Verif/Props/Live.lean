import Verif.Proof.Live
/-
C34, C35: stopping and resuming.
-/
namespace Pstack.Props
open Pstack.Spec Pstack.Live

theorem sound_start (pid : Nat) (already : Bool) : Sound (start pid already) := by
  unfold start
  cases already with
  | false =>
    refine ⟨List.Pairwise.nil, ⟨?_, ?_⟩, ?_⟩
    · intro pre t ok post h; simp at h
    · intro pre t post h; simp at h
    · intro t
      constructor
      · intro h; cases h
      · rintro ⟨l, h, _⟩; cases h
  | true =>
    refine ⟨by simp [OMap.Sorted], ?_, ?_⟩
    · have := orderly_snoc (log := []) (r := .attach pid true) ⟨by intro pre t ok post h; simp at h, by intro pre t post h; simp at h⟩ rfl
      simpa using this
    · intro t
      show (if pid = t then true else false) = true ↔ ∃ l, OMap.lookup t [(pid, (⟨1, 0⟩ : Lwp))] = some l ∧ _
      by_cases ht : pid = t
      · subst ht
        simp [OMap.lookup]
      · simp [OMap.lookup, ht]

theorem sound_call {s s' : State} (h : Sound s) (c : LiveCall) (e : call s c = some s') : Sound s' ∧ s'.pid = s.pid := by
  cases c with
  | stop t o => obtain ⟨h1, h2, _⟩ := stop_spec h e; exact ⟨h1, h2⟩
  | resume t =>
    have e' : some (resume t s) = some s' := e
    injection e' with e'
    subst e'
    obtain ⟨h1, h2, _⟩ := resume_spec t h; exact ⟨h1, h2⟩
  | stopAll scans outs =>
    obtain ⟨ts, h1, _, h3⟩ := stopProcess_stops outs scans s s' e (fun s1 e1 => (stop_spec h e1).2.1)
    obtain ⟨g1, g2, _⟩ := stops_spec outs ts h1 h h3
    exact ⟨g1, g2⟩
  | resumeAll =>
    have e' : some (resumeProcess s) = some s' := e
    injection e' with e'
    subst e'
    obtain ⟨h1, h2, _⟩ := resumeProcess_spec h; exact ⟨h1, h2⟩

theorem sound_run (cs : List LiveCall) : ∀ {s s' : State}, Sound s → run s cs = some s' → Sound s' ∧ s'.pid = s.pid := by
  induction cs with
  | nil => intro s s' h e; injection e with e; subst e; exact ⟨h, rfl⟩
  | cons c cs ih =>
    intro s s' h e
    rw [run, Option.bind_eq_some_iff] at e
    obtain ⟨s1, e1, e2⟩ := e
    obtain ⟨h1, h2⟩ := sound_call h c e1
    obtain ⟨g1, g2⟩ := ih h1 e2
    exact ⟨g1, g2.trans h2⟩

/-- **C34.** Whatever is called, in whatever order, and whatever the kernel answers: a thread is only attached to when it is not
attached and only detached when it is - never twice. -/
theorem C34_orderly (pid : Nat) (already : Bool) (h : List LiveCall) (s : State) (e : run (start pid already) h = some s) : Orderly s.log :=
  (sound_run h (sound_start pid already) e).1.orderly

theorem drop1_spec {s : State} (h : Sound s) (t : Nat) :
    Sound (drop1 s t) ∧ attachedAfter t (drop1 s t).log = false ∧
    (∀ t', t' ≠ t → OMap.lookup t' (drop1 s t).lwps = OMap.lookup t' s.lwps) := by
  unfold drop1
  cases hl : OMap.lookup t s.lwps with
  | none => exact ⟨h, not_attached h (by rw [hl]; rintro ⟨l, h1, _⟩; cases h1), fun _ _ => rfl⟩
  | some l =>
    simp only
    by_cases hc : l.stopCount > 0
    · rw [if_pos hc]
      have hlook : ∀ t', OMap.lookup t' (OMap.assign t { l with stopCount := 1 } s.lwps) = if t' = t then some { l with stopCount := 1 } else OMap.lookup t' s.lwps :=
        fun t' => OMap.lookup_assign h.sorted
      have hs : Sound { s with lwps := OMap.assign t { l with stopCount := 1 } s.lwps } := by
        refine ⟨OMap.sorted_assign h.sorted, h.orderly, ?_⟩
        intro t'
        refine (h.attached t').trans ?_
        show _ ↔ ∃ l', OMap.lookup t' (OMap.assign _ _ _) = some l' ∧ _
        rw [hlook]
        by_cases ht : t' = t
        · subst ht
          rw [if_pos rfl, hl]
          constructor
          · rintro ⟨l', h1, _, h3⟩; cases h1; exact ⟨_, rfl, by show (0 : Int) < 1; decide, h3⟩
          · rintro ⟨l', h1, _, h3⟩; cases h1; exact ⟨l, rfl, hc, h3⟩
        · rw [if_neg ht]
      obtain ⟨g1, _, g3, g4⟩ := resume_spec t hs
      refine ⟨g1, not_attached g1 ?_, ?_⟩
      · rw [g4]
        show ¬ ∃ l', (OMap.lookup t (OMap.assign _ _ _)).map _ = some l' ∧ _
        rw [hlook, if_pos rfl]
        rintro ⟨l', h1, h2, _⟩
        cases h1
        exact absurd h2 (by show ¬ (0 : Int) < 1 - 1; decide)
      · intro t' ht
        rw [g3 t' ht]
        show OMap.lookup t' (OMap.assign _ _ _) = _
        rw [hlook, if_neg ht]
    · rw [if_neg hc]
      exact ⟨h, not_attached h (by rw [hl]; rintro ⟨l', h1, h2, _⟩; cases h1; exact hc h2), fun _ _ => rfl⟩

theorem drops_spec (ks : List Nat) : ∀ {s : State}, Sound s → Sound (ks.foldl drop1 s) ∧
    ∀ t, attachedAfter t (ks.foldl drop1 s).log = true → t ∉ ks ∧ attachedAfter t s.log = true := by
  induction ks with
  | nil => intro s h; exact ⟨h, fun t ht => ⟨by simp, ht⟩⟩
  | cons k ks ih =>
    intro s h
    obtain ⟨h1, h2, h3⟩ := drop1_spec h k
    obtain ⟨g1, g2⟩ := ih h1
    refine ⟨g1, fun t ht => ?_⟩
    obtain ⟨q1, q2⟩ := g2 t ht
    by_cases hk : t = k
    · subst hk; rw [h2] at q2; cases q2
    · refine ⟨by simp [hk, q1], ?_⟩
      have := (h1.attached t).1 q2
      rw [h3 t hk] at this
      exact (h.attached t).2 this

/-- **C34.** When pstack is done with the process, no thread of it is left attached, whatever was called before; and here too no
thread is detached twice. -/
theorem C34_released (pid : Nat) (already : Bool) (h : List LiveCall) (s : State) (e : run (start pid already) h = some s) :
    Orderly (destroy s).log ∧ ∀ t, attachedAfter t (destroy s).log = false := by
  have hs := (sound_run h (sound_start pid already) e).1
  obtain ⟨g1, g2⟩ := drops_spec (s.lwps.map (·.1)) hs
  refine ⟨g1.orderly, fun t => ?_⟩
  cases ha : attachedAfter t (destroy s).log with
  | false => rfl
  | true =>
    obtain ⟨q1, q2⟩ := g2 t ha
    obtain ⟨l, h1, _⟩ := (hs.attached t).1 q2
    rw [(lookup_none_iff hs.sorted).2 q1] at h1
    cases h1

/-! ### Matched histories -/

/-- The accounts are the pending stops; `z t` says `t` has been resumed singly. -/
structure Counts (p : Nat → Nat × Prop) (z : Nat → Prop) (s : State) : Prop where
  sound : Sound s
  count : ∀ t, (account s t).stopCount = (p t).1
  err : ∀ t, 0 < (p t).1 → ((account s t).ptraceErr = 0 ↔ (p t).2)
  zero : ∀ t l, OMap.lookup t s.lwps = some l → l.stopCount = 0 → z t

theorem account_some {s : State} {t : Nat} {l : Lwp} (h : OMap.lookup t s.lwps = some l) : account s t = l := by
  unfold account; rw [h]; rfl

theorem Counts.attached {p : Nat → Nat × Prop} {z : Nat → Prop} {s : State} (h : Counts p z s) (t : Nat) :
    attachedAfter t s.log = true ↔ 0 < (p t).1 ∧ (p t).2 := by
  refine (h.sound.attached t).trans ?_
  have hc := h.count t
  have he := h.err t
  constructor
  · rintro ⟨l, h1, h2, h3⟩
    rw [account_some h1] at hc he
    have hpos : 0 < (p t).1 := by omega
    exact ⟨hpos, (he hpos).1 h3⟩
  · rintro ⟨h1, h2⟩
    unfold account at hc he
    cases hl : OMap.lookup t s.lwps with
    | none => rw [hl] at hc; simp at hc; omega
    | some l =>
      rw [hl] at hc he
      simp only [Option.getD_some] at hc he
      exact ⟨l, rfl, by omega, (he h1).2 h2⟩

/-- After stopping some threads, each once. -/
theorem counts_stops {p : Nat → Nat × Prop} {z : Nat → Prop} {s s' : State} (h : Counts p z s) (ts : List Nat) (outs : Nat → StopOutcome)
    (hn : ∀ t, t ∉ ts → OMap.lookup t s'.lwps = OMap.lookup t s.lwps) (hs : Sound s')
    (hy : ∀ t, t ∈ ts → ∃ l, OMap.lookup t s'.lwps = some l ∧ l.stopCount = (account s t).stopCount + 1 ∧
      ((account s t).stopCount ≠ 0 → l.ptraceErr = (account s t).ptraceErr) ∧
      ((account s t).stopCount = 0 → (l.ptraceErr = 0 ↔ (outs t).Succeeds)))
    (q : Nat → Nat × Prop) (hq1 : ∀ t, t ∈ ts → q t = oneStop (outs t) (p t)) (hq2 : ∀ t, t ∉ ts → q t = p t) : Counts q z s' := by
  have hcase : ∀ t, t ∉ ts → account s' t = account s t := fun t ht => by unfold account; rw [hn t ht]
  refine ⟨hs, ?_, ?_, ?_⟩
  · intro t
    by_cases ht : t ∈ ts
    · obtain ⟨l, h1, h2, _⟩ := hy t ht
      rw [account_some h1, h2, h.count t, hq1 t ht]
      unfold oneStop
      split
      · rename_i h0; rw [h0]; rfl
      · show ((p t).1 : Int) + 1 = ((p t).1 + 1 : Nat); omega
    · rw [hcase t ht, hq2 t ht]; exact h.count t
  · intro t
    by_cases ht : t ∈ ts
    · obtain ⟨l, h1, h2, h3, h4⟩ := hy t ht
      rw [account_some h1, hq1 t ht]
      unfold oneStop
      have hc := h.count t
      split
      · rename_i h0
        intro _
        exact h4 (by omega)
      · rename_i h0
        intro _
        rw [h3 (by omega)]
        exact h.err t (by omega)
    · rw [hcase t ht, hq2 t ht]; exact h.err t
  · intro t l h1 h2
    by_cases ht : t ∈ ts
    · obtain ⟨l', g1, g2, _⟩ := hy t ht
      rw [g1] at h1
      cases h1
      have := h.count t
      omega
    · rw [hn t ht] at h1; exact h.zero t l h1 h2

theorem counts_call {p : Nat → Nat × Prop} {z : Nat → Prop} {s s' : State} (h : Counts p z s) (pid : Nat) (hpid : s.pid = pid) (c : LiveCall)
    (e : call s c = some s') (hm1 : ∀ t, c = .resume t → 0 < (p t).1) (hm2 : c = .resumeAll → ∀ t, z t → 0 < (p t).1) :
    Counts (fun t => c.effect pid t (p t)) (fun t => z t ∨ c = .resume t) s' := by
  cases c with
  | stop t o =>
    obtain ⟨h1, _, h3, h4⟩ := stop_spec h.sound e
    have := counts_stops h [t] (fun _ => o) (fun t' ht => h3 t' (by simpa using ht)) h1 (fun t' ht => by
      simp at ht; subst ht; exact h4) (fun t' => LiveCall.effect pid t' (p t') (.stop t o))
      (fun t' ht => by simp at ht; subst ht; show (if t' = t' then _ else _) = _; rw [if_pos rfl])
      (fun t' ht => by simp at ht; show (if t = t' then _ else _) = _; rw [if_neg (fun h => ht h.symm)])
    exact ⟨this.sound, this.count, this.err, fun t' l a b => .inl (this.zero t' l a b)⟩
  | stopAll scans outs =>
    obtain ⟨ts, h1, h2, h3⟩ := stopProcess_stops outs scans s s' e (fun s1 e1 => (stop_spec h.sound e1).2.1)
    obtain ⟨g1, _, g3, g4⟩ := stops_spec outs ts h1 h.sound h3
    rw [hpid] at h2
    have := counts_stops h ts outs g3 g1 g4 (fun t' => LiveCall.effect pid t' (p t') (.stopAll scans outs))
      (fun t' ht => by show (if _ then _ else _) = _; rw [if_pos ((h2 t').1 ht)])
      (fun t' ht => by show (if _ then _ else _) = _; rw [if_neg (fun h => ht ((h2 t').2 h))])
    exact ⟨this.sound, this.count, this.err, fun t' l a b => .inl (this.zero t' l a b)⟩
  | resume t =>
    have e' : some (resume t s) = some s' := e
    injection e' with e'
    subst e'
    have hpos := hm1 t rfl
    obtain ⟨h1, _, h3, h4⟩ := resume_spec t h.sound
    obtain ⟨l, hl⟩ : ∃ l, OMap.lookup t s.lwps = some l := by
      have := h.count t
      unfold account at this
      cases hl : OMap.lookup t s.lwps with
      | none => rw [hl] at this; simp at this; omega
      | some l => exact ⟨l, rfl⟩
    rw [hl] at h4
    have hacc : account s t = l := account_some hl
    have hacc' : account (resume t s) t = { l with stopCount := l.stopCount - 1 } := account_some h4
    have hoth : ∀ t', t' ≠ t → account (resume t s) t' = account s t' := fun t' ht => by unfold account; rw [h3 t' ht]
    have heff : ∀ t', LiveCall.effect pid t' (p t') (.resume t) = if t = t' then ((p t').1 - 1, (p t').2) else p t' := fun _ => rfl
    refine ⟨h1, ?_, ?_, ?_⟩
    · intro t'
      rw [heff]
      by_cases ht : t' = t
      · subst ht
        rw [if_pos rfl, hacc']
        have := h.count t'
        rw [hacc] at this
        show l.stopCount - 1 = ((p t').1 - 1 : Nat)
        omega
      · rw [if_neg (fun h => ht h.symm), hoth t' ht]; exact h.count t'
    · intro t'
      rw [heff]
      by_cases ht : t' = t
      · subst ht
        rw [if_pos rfl, hacc']
        intro h0
        have := h.err t' hpos
        rw [hacc] at this
        exact this
      · rw [if_neg (fun h => ht h.symm), hoth t' ht]; exact h.err t'
    · intro t' l' g1 g2
      by_cases ht : t' = t
      · subst ht; exact .inr rfl
      · rw [h3 t' ht] at g1; exact .inl (h.zero t' l' g1 g2)
  | resumeAll =>
    have e' : some (resumeProcess s) = some s' := e
    injection e' with e'
    subst e'
    obtain ⟨h1, _, h3⟩ := resumeProcess_spec h.sound
    have heff : ∀ t', LiveCall.effect pid t' (p t') .resumeAll = ((p t').1 - 1, (p t').2) := fun _ => rfl
    have key : ∀ t, (account (resumeProcess s) t).stopCount = ((p t).1 - 1 : Nat) ∧
        (1 < (p t).1 → (account (resumeProcess s) t).ptraceErr = (account s t).ptraceErr) := by
      intro t
      have hc := h.count t
      unfold account at hc ⊢
      rw [h3]
      cases hl : OMap.lookup t s.lwps with
      | none =>
        rw [hl] at hc
        simp only [Option.getD_none] at hc
        refine ⟨by show (0 : Int) = _; omega, fun h => by omega⟩
      | some l =>
        rw [hl] at hc
        simp only [Option.getD_some] at hc
        have hpos : 0 < (p t).1 := by
          rcases Nat.eq_zero_or_pos (p t).1 with h0 | h0
          · exact hm2 rfl t (h.zero t l hl (by omega))
          · exact h0
        by_cases h1 : l.stopCount - 1 = 0
        · rw [show ((some l).map (fun l => ({ l with stopCount := l.stopCount - 1 } : Lwp))).filter (fun l => decide (l.stopCount ≠ 0)) = none by
            simp [h1]]
          refine ⟨by show (0 : Int) = _; omega, fun h => by omega⟩
        · rw [show ((some l).map (fun l => ({ l with stopCount := l.stopCount - 1 } : Lwp))).filter (fun l => decide (l.stopCount ≠ 0)) =
            some { l with stopCount := l.stopCount - 1 } by simp [h1]]
          refine ⟨by show l.stopCount - 1 = _; omega, fun _ => rfl⟩
    refine ⟨h1, ?_, ?_, ?_⟩
    · intro t; rw [heff]; exact (key t).1
    · intro t
      rw [heff]
      intro h0
      have h0' : 1 < (p t).1 := by have : 0 < (p t).1 - 1 := h0; omega
      rw [(key t).2 h0']
      exact h.err t (by omega)
    · intro t l g1 g2
      rw [h3, Option.filter_eq_some_iff] at g1
      simp at g1
      exact absurd g2 g1.2

theorem counts_run (pid : Nat) (already : Bool) (cs : List LiveCall) : ∀ (pre : List LiveCall) (s s' : State), s.pid = pid →
    Counts (pending pid already pre) (fun t => .resume t ∈ pre) s → Matched pid already (pre ++ cs) → run s cs = some s' →
    Counts (pending pid already (pre ++ cs)) (fun t => .resume t ∈ pre ++ cs) s' := by
  induction cs with
  | nil => intro pre s s' _ h _ e; injection e with e; subst e; rwa [List.append_nil]
  | cons c cs ih =>
    intro pre s s' hp h hm e
    rw [run, Option.bind_eq_some_iff] at e
    obtain ⟨s1, e1, e2⟩ := e
    have h1 := counts_call h pid hp c e1 (fun t hc => hm.1 pre t cs (by rw [hc])) (fun hc => hm.2 pre cs (by rw [hc]))
    have hp1 : s1.pid = pid := (sound_call h.sound c e1).2.trans hp
    rw [show pre ++ c :: cs = (pre ++ [c]) ++ cs by simp] at hm ⊢
    refine ih (pre ++ [c]) s1 s' hp1 ?_ hm e2
    have hfun : pending pid already (pre ++ [c]) = fun t => c.effect pid t (pending pid already pre t) := by
      funext t
      unfold pending
      rw [List.foldl_append]; rfl
    rw [hfun]
    refine ⟨h1.sound, h1.count, h1.err, fun t l a b => ?_⟩
    rcases h1.zero t l a b with h | h
    · exact List.mem_append_left _ h
    · exact List.mem_append_right _ (by rw [h]; simp)

theorem counts_start (pid : Nat) (already : Bool) : Counts (pending pid already []) (fun t => .resume t ∈ ([] : List LiveCall)) (start pid already) := by
  refine ⟨sound_start pid already, ?_, ?_, ?_⟩
  · intro t
    cases already with
    | false => simp [account, start, pending, OMap.lookup]
    | true =>
      by_cases ht : t = pid
      · subst ht; simp [account, start, pending, OMap.lookup]
      · have ht' : ¬ pid = t := fun h => ht h.symm
        simp [account, start, pending, OMap.lookup, ht, ht']
  · intro t
    cases already with
    | false => simp [pending]
    | true =>
      by_cases ht : t = pid
      · subst ht; simp [account, start, pending, OMap.lookup]
      · simp [pending, ht]
  · intro t l h1 h2
    cases already with
    | false => cases h1
    | true =>
      have h1' : OMap.lookup t [(pid, (⟨1, 0⟩ : Lwp))] = some l := h1
      unfold OMap.lookup at h1'
      by_cases ht : pid = t
      · simp [ht] at h1'; subst h1'; exact absurd h2 (by decide)
      · simp [ht] at h1'

/-- **C34 (partial).** If every resume undoes a stop, a thread is attached exactly while stops of it are pending and the first of them
worked. Partial: an unmatched resume can make later stops ineffective, see below. -/
theorem C34_attached_partial (pid : Nat) (already : Bool) (h : List LiveCall) (hm : Matched pid already h) (s : State)
    (e : run (start pid already) h = some s) (t : Nat) :
    attachedAfter t s.log = true ↔ 0 < (pending pid already h t).1 ∧ (pending pid already h t).2 := by
  have := counts_run pid already h [] (start pid already) s (by unfold start; split <;> rfl) (counts_start pid already) hm e
  exact this.attached t

/-- **C35.** After the process has been stopped, the threads reported for examination are those found in any reading of the list whose stop
succeeded, and these are attached. -/
theorem C35_listed (pid : Nat) (scans : List (List Nat)) (outs : Nat → StopOutcome) (s : State)
    (e : stopProcess scans outs (start pid false) = some s) (t : Nat) :
    (t ∈ listLWPs s ↔ (t = pid ∨ (t ≠ 0 ∧ t ∈ scans.flatten)) ∧ (outs t).Succeeds) ∧ (t ∈ listLWPs s ↔ attachedAfter t s.log = true) := by
  have hst := sound_start pid false
  obtain ⟨ts, h1, h2, h3⟩ := stopProcess_stops outs scans _ s e (fun s1 e1 => (stop_spec hst e1).2.1)
  obtain ⟨g1, _, g3, g4⟩ := stops_spec outs ts h1 hst h3
  have hmem : t ∈ listLWPs s ↔ ∃ l, OMap.lookup t s.lwps = some l ∧ l.ptraceErr = 0 := by
    unfold listLWPs
    constructor
    · intro h
      obtain ⟨x, hx, rfl⟩ := List.mem_map.1 h
      obtain ⟨hx1, hx2⟩ := List.mem_filter.1 hx
      exact ⟨x.2, OMap.lookup_mem g1.sorted hx1, by simpa using hx2⟩
    · rintro ⟨l, hl, h0⟩
      exact List.mem_map.2 ⟨(t, l), List.mem_filter.2 ⟨OMap.lookup_some hl, by simpa using h0⟩, rfl⟩
  have hacc : ∀ t, account (start pid false) t = ⟨0, 0⟩ := fun _ => rfl
  have hcase : (t ∈ ts → ∃ l, OMap.lookup t s.lwps = some l ∧ l.stopCount = 1 ∧ (l.ptraceErr = 0 ↔ (outs t).Succeeds)) ∧
      (t ∉ ts → OMap.lookup t s.lwps = none) := by
    refine ⟨fun ht => ?_, fun ht => by rw [g3 t ht]; rfl⟩
    obtain ⟨l, q1, q2, _, q4⟩ := g4 t ht
    rw [hacc] at q2 q4
    exact ⟨l, q1, q2, q4 rfl⟩
  have h2t := h2 t
  have hp : (start pid false).pid = pid := rfl
  rw [hp] at h2t
  by_cases ht : t ∈ ts
  · obtain ⟨l, q1, q2, q3⟩ := hcase.1 ht
    refine ⟨?_, ?_⟩
    · rw [hmem]
      constructor
      · rintro ⟨l', r1, r2⟩
        rw [q1] at r1; cases r1
        exact ⟨h2t.1 ht, q3.1 r2⟩
      · rintro ⟨_, r2⟩
        exact ⟨l, q1, q3.2 r2⟩
    · rw [hmem, g1.attached]
      constructor
      · rintro ⟨l', r1, r2⟩
        rw [q1] at r1; cases r1
        exact ⟨l, q1, by omega, r2⟩
      · rintro ⟨l', r1, _, r2⟩; exact ⟨l', r1, r2⟩
  · have hn := hcase.2 ht
    refine ⟨?_, ?_⟩
    · rw [hmem, hn]
      constructor
      · rintro ⟨l', r1, _⟩; cases r1
      · rintro ⟨r1, _⟩; exact absurd (h2t.2 r1) ht
    · rw [hmem, g1.attached, hn]
      constructor
      · rintro ⟨l', r1, _⟩; cases r1
      · rintro ⟨l', r1, _⟩; cases r1

/-- A stop that works at once; one refused. -/
def works : StopOutcome := ⟨0, [.stopped]⟩
def refused : StopOutcome := ⟨1, []⟩

theorem works_succeeds : works.Succeeds := ⟨rfl, [], [], rfl, by simp⟩

/-- **C34, example.** A process of threads 10, 11 and 12 is stopped, 12 cannot be attached to; thread 11 is stopped again and
resumed, and is still attached; after the process is resumed, nothing is. The resume of 11 and the last one are matched. -/
def sampleHistory : List LiveCall :=
  [.stopAll [[10, 11], [10, 11, 12], [10, 11, 12]] (fun t => if t = 12 then refused else works), .stop 11 works, .resume 11]

theorem C34_example :
    (run (start 10 false) sampleHistory).map (fun s => (s.log, attachedAfter 10 s.log, attachedAfter 11 s.log, attachedAfter 12 s.log)) =
      some ([.attach 10 true, .attach 11 true, .attach 12 false], true, true, false) ∧
    (run (start 10 false) (sampleHistory ++ [.resumeAll])).map (fun s => s.log) =
      some [.attach 10 true, .attach 11 true, .attach 12 false, .detach 10, .flush, .detach 11, .flush] := by decide +kernel

theorem sampleHistory_matched : Matched 10 false sampleHistory := by
  refine ⟨?_, ?_⟩
  · intro pre t post h
    have hlen := congrArg List.length h
    simp [sampleHistory] at hlen
    rcases pre with _ | ⟨a, _ | ⟨b, _ | ⟨c, pre⟩⟩⟩ <;> simp [sampleHistory] at h
    obtain ⟨rfl, rfl, h, _⟩ := h
    subst h
    simp [pending, LiveCall.effect, oneStop]
  · intro pre post h
    rcases pre with _ | ⟨a, _ | ⟨b, _ | ⟨c, pre⟩⟩⟩ <;> simp [sampleHistory] at h

/-- The theorem applies to it. -/
theorem C34_example_applies : ∃ s, run (start 10 false) sampleHistory = some s ∧ attachedAfter 11 s.log = true := by
  cases e : run (start 10 false) sampleHistory with
  | none => exact absurd e (by intro h; have := C34_example.1; rw [h] at this; cases this)
  | some s =>
    refine ⟨s, rfl, (C34_attached_partial 10 false sampleHistory sampleHistory_matched s e 11).2 ?_⟩
    simp [sampleHistory, pending, LiveCall.effect, oneStop, works_succeeds]

/-- **C34 fails.** A resume without a stop is remembered if the thread was stopped before: the next stop of it does nothing, and the
thread keeps running while pstack believes it stopped. -/
theorem C34_not_unmatched :
    (run (start 10 false) [.stop 11 works, .resume 11, .resume 11, .stop 11 works]).map (fun s => (attachedAfter 11 s.log, listLWPs s)) =
      some (false, [11]) ∧
    (pending 10 false [.stop 11 works, .resume 11, .resume 11, .stop 11 works] 11).1 = 1 := by
  refine ⟨by decide +kernel, by simp [pending, LiveCall.effect, oneStop]⟩

/-- **C34 fails.** The same without any unmatched call on the thread: it is stopped and resumed on its own (as reading its registers
does), the whole process is stopped and resumed without it being found, and it is stopped again. -/
theorem C34_not_lingering :
    (run (start 10 false) [.stop 11 works, .resume 11, .stopAll [[10]] (fun _ => works), .resumeAll, .stop 11 works]).map
      (fun s => attachedAfter 11 s.log) = some false := by
  decide +kernel

end Pstack.Props
