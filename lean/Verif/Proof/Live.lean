import Verif.Model.Live
/-
Stopping and resuming threads.
-/
namespace Pstack.Props
open Pstack.Spec Pstack.Live

/-! ### Requests -/

/-- The effect of one request. -/
def stepAttached (t : Nat) (a : Bool) (r : Req) : Bool :=
  match r with
  | .attach t' true => if t' = t then true else a
  | .detach t' => if t' = t then false else a
  | _ => a

theorem attachedAfter_snoc (t : Nat) (log : List Req) (r : Req) :
    attachedAfter t (log ++ [r]) = stepAttached t (attachedAfter t log) r := by
  unfold attachedAfter
  rw [List.foldl_append]
  rfl

theorem split_snoc {α : Type} {log pre post : List α} {r x : α} (h : log ++ [r] = pre ++ x :: post) :
    (post = [] ∧ log = pre ∧ r = x) ∨ ∃ post', post = post' ++ [r] ∧ log = pre ++ x :: post' := by
  rcases List.eq_nil_or_concat post with rfl | ⟨post', y, rfl⟩
  · left
    have := List.append_inj' (t₁ := [r]) (t₂ := [x]) h rfl
    exact ⟨rfl, this.1, by simpa using this.2⟩
  · right
    have h' : log ++ [r] = (pre ++ x :: post') ++ [y] := by simpa using h
    have := List.append_inj' h' rfl
    refine ⟨post', by simpa using this.2.symm, this.1⟩

/-- The condition on one more request. -/
def OkNext (log : List Req) : Req → Prop
  | .attach t _ => attachedAfter t log = false
  | .detach t => attachedAfter t log = true
  | _ => True

theorem orderly_snoc {log : List Req} {r : Req} (h : Orderly log) (hr : OkNext log r) : Orderly (log ++ [r]) := by
  constructor
  · intro pre t ok post he
    rcases split_snoc he with ⟨_, h1, h2⟩ | ⟨post', _, h2⟩
    · subst h1; subst h2; exact hr
    · exact h.1 pre t ok post' h2
  · intro pre t post he
    rcases split_snoc he with ⟨_, h1, h2⟩ | ⟨post', _, h2⟩
    · subst h1; subst h2; exact hr
    · exact h.2 pre t post' h2

/-- Requests that neither attach nor detach. -/
def Neutral (r : Req) : Prop := (∀ t ok, r ≠ .attach t ok) ∧ ∀ t, r ≠ .detach t

theorem stepAttached_neutral {r : Req} (h : Neutral r) (t : Nat) (a : Bool) : stepAttached t a r = a := by
  cases r with
  | attach t' ok => exact absurd rfl (h.1 t' ok)
  | detach t' => exact absurd rfl (h.2 t')
  | cont t' sig => rfl
  | sigcont t' => rfl
  | flush => rfl

theorem okNext_neutral {r : Req} (h : Neutral r) (log : List Req) : OkNext log r := by
  cases r with
  | attach t' ok => exact absurd rfl (h.1 t' ok)
  | detach t' => exact absurd rfl (h.2 t')
  | cont t' sig => trivial
  | sigcont t' => trivial
  | flush => trivial

theorem neutral_append (evs : List Req) : ∀ (log : List Req), (∀ r ∈ evs, Neutral r) → Orderly log →
    Orderly (log ++ evs) ∧ ∀ t, attachedAfter t (log ++ evs) = attachedAfter t log := by
  induction evs with
  | nil => intro log _ h; simpa using h
  | cons r evs ih =>
    intro log hn h
    obtain ⟨h1, h2⟩ := ih (log ++ [r]) (fun x hx => hn x (by simp [hx])) (orderly_snoc h (okNext_neutral (hn r (by simp)) log))
    rw [List.append_assoc] at h1 h2
    refine ⟨h1, fun t => ?_⟩
    rw [show r :: evs = [r] ++ evs from rfl, h2, attachedAfter_snoc, stepAttached_neutral (hn r (by simp))]

/-! ### Waiting -/

theorem waitLoop_spec (t : Nat) (ws : List WaitRes) : ∀ e evs, waitLoop t ws = some (e, evs) →
    (∀ r ∈ evs, Neutral r) ∧
    (e = 0 ↔ ∃ pre post, ws = pre ++ .stopped :: post ∧ ∀ w ∈ pre, w = .interrupted ∨ ∃ s, w = .signalled s 0) := by
  have hcont : ∀ sig, Neutral (.cont t sig) := fun sig => by
    constructor
    · intro t ok h; cases h
    · intro t h; cases h
  have bad : ∀ (w : WaitRes) (ws : List WaitRes), w ≠ .stopped → (∀ s, w ≠ .signalled s 0) → w ≠ .interrupted →
      ¬ ∃ pre post, w :: ws = pre ++ .stopped :: post ∧ ∀ w ∈ pre, w = .interrupted ∨ ∃ s, w = .signalled s 0 := by
    rintro w ws h1 h2 h3 ⟨pre, post, he, hp⟩
    cases pre with
    | nil => simp at he; exact h1 he.1
    | cons x pre =>
      simp at he
      rcases hp x (by simp) with h | ⟨s, h⟩
      · exact h3 (he.1.trans h)
      · exact h2 s (he.1.trans h)
  have skip : ∀ (w : WaitRes) (ws : List WaitRes), (w = .interrupted ∨ ∃ s, w = .signalled s 0) → w ≠ .stopped →
      ((∃ pre post, ws = pre ++ .stopped :: post ∧ ∀ w ∈ pre, w = .interrupted ∨ ∃ s, w = .signalled s 0) ↔
       ∃ pre post, w :: ws = pre ++ .stopped :: post ∧ ∀ w ∈ pre, w = .interrupted ∨ ∃ s, w = .signalled s 0) := by
    intro w ws hw hns
    constructor
    · rintro ⟨pre, post, he, hp⟩
      refine ⟨w :: pre, post, by rw [he]; rfl, ?_⟩
      intro x hx
      rcases List.mem_cons.1 hx with h | h
      · rw [h]; exact hw
      · exact hp x h
    · rintro ⟨pre, post, he, hp⟩
      cases pre with
      | nil => simp at he; exact absurd he.1 hns
      | cons x pre => simp at he; exact ⟨pre, post, he.2, fun y hy => hp y (by simp [hy])⟩
  induction ws with
  | nil => intro e evs h; simp [waitLoop] at h
  | cons w ws ih =>
    intro e evs h
    cases w with
    | interrupted =>
      have h' : waitLoop t ws = some (e, evs) := h
      obtain ⟨h1, h2⟩ := ih e evs h'
      exact ⟨h1, h2.trans (skip _ ws (.inl rfl) (by simp))⟩
    | failed err hne =>
      have h' : some (err, []) = some (e, evs) := h
      injection h' with h'; injection h' with h1 h2
      subst h1; subst h2
      exact ⟨by simp, fun h => absurd h hne, fun h => absurd h (bad _ _ (by simp) (by simp) (by simp))⟩
    | notStopped =>
      have h' : some (22, []) = some (e, evs) := h
      injection h' with h'; injection h' with h1 h2
      subst h1; subst h2
      exact ⟨by simp, fun h => absurd h (by decide), fun h => absurd h (bad _ _ (by simp) (by simp) (by simp))⟩
    | signalled sig ce =>
      rw [waitLoop] at h
      by_cases hc : ce = 0
      · rw [if_pos hc, Option.map_eq_some_iff] at h
        obtain ⟨⟨e', evs'⟩, h1, h2⟩ := h
        injection h2 with h2 h3
        subst h2; subst h3; subst hc
        obtain ⟨g1, g2⟩ := ih e' evs' h1
        refine ⟨?_, g2.trans (skip _ ws (.inr ⟨sig, rfl⟩) (by simp))⟩
        intro r hr
        rcases List.mem_cons.1 hr with h | h
        · rw [h]; exact hcont sig
        · exact g1 r h
      · rw [if_neg hc] at h
        injection h with h'; injection h' with h1 h2
        subst h1; subst h2
        refine ⟨by intro r hr; simp at hr; rw [hr]; exact hcont sig, fun h => absurd h hc, fun h => absurd h (bad _ _ (by simp) ?_ (by simp))⟩
        intro s h
        injection h with _ h
        exact hc h
    | stopped =>
      have h' : some (0, []) = some (e, evs) := h
      injection h' with h'; injection h' with h1 h2
      subst h1; subst h2
      exact ⟨by simp, fun _ => ⟨[], ws, rfl, by simp⟩, fun _ => rfl⟩

/-! ### All histories -/

/-- What holds whatever is called: the accounts say who is attached, and requests are orderly. -/
structure Sound (s : State) : Prop where
  sorted : OMap.Sorted s.lwps
  orderly : Orderly s.log
  attached : ∀ t, attachedAfter t s.log = true ↔ ∃ l, OMap.lookup t s.lwps = some l ∧ 0 < l.stopCount ∧ l.ptraceErr = 0

theorem not_attached {s : State} (h : Sound s) {t : Nat} (hn : ¬ ∃ l, OMap.lookup t s.lwps = some l ∧ 0 < l.stopCount ∧ l.ptraceErr = 0) :
    attachedAfter t s.log = false := by
  cases ha : attachedAfter t s.log with
  | false => rfl
  | true => exact absurd ((h.attached t).1 ha) hn

/-- The account of a thread not known is empty. -/
def account (s : State) (t : Nat) : Lwp := (OMap.lookup t s.lwps).getD ⟨0, 0⟩

theorem stop_spec {s s' : State} {t : Nat} {o : StopOutcome} (h : Sound s) (he : stop t o s = some s') :
    Sound s' ∧ s'.pid = s.pid ∧ (∀ t', t' ≠ t → OMap.lookup t' s'.lwps = OMap.lookup t' s.lwps) ∧
    ∃ l, OMap.lookup t s'.lwps = some l ∧ l.stopCount = (account s t).stopCount + 1 ∧
      ((account s t).stopCount ≠ 0 → l.ptraceErr = (account s t).ptraceErr) ∧
      ((account s t).stopCount = 0 → (l.ptraceErr = 0 ↔ o.Succeeds)) := by
  unfold stop at he
  change (if (account s t).stopCount ≠ 0 then _ else _) = _ at he
  have hlook : ∀ (v : Lwp) t', OMap.lookup t' (OMap.assign t v s.lwps) = if t' = t then some v else OMap.lookup t' s.lwps :=
    fun v t' => OMap.lookup_assign h.sorted
  by_cases hc : (account s t).stopCount ≠ 0
  · rw [if_pos hc] at he
    injection he with he
    subst he
    refine ⟨⟨OMap.sorted_assign h.sorted, h.orderly, ?_⟩, rfl, fun t' ht => by show OMap.lookup t' (OMap.assign _ _ _) = _; rw [hlook, if_neg ht], ?_⟩
    · intro t'
      refine (h.attached t').trans ?_
      show _ ↔ ∃ l, OMap.lookup t' (OMap.assign _ _ _) = some l ∧ _
      rw [hlook]
      by_cases ht : t' = t
      · subst ht
        rw [if_pos rfl]
        unfold account at hc
        cases hl : OMap.lookup t' s.lwps with
        | none => rw [hl] at hc; exact absurd rfl hc
        | some l =>
          rw [hl] at hc
          simp only [Option.getD_some] at hc ⊢
          constructor
          · rintro ⟨l', h1, h2, h3⟩
            cases h1
            exact ⟨_, rfl, by show 0 < l.stopCount + 1; omega, h3⟩
          · rintro ⟨l', h1, h2, h3⟩
            cases h1
            have h2' : 0 < l.stopCount + 1 := h2
            exact ⟨l, rfl, by omega, h3⟩
      · rw [if_neg ht]
    · refine ⟨{ account s t with stopCount := (account s t).stopCount + 1 }, by show OMap.lookup t (OMap.assign _ _ _) = _; rw [hlook, if_pos rfl]; rfl, rfl, fun _ => rfl, fun h0 => absurd h0 hc⟩
  · rw [if_neg hc] at he
    have hc0 : (account s t).stopCount = 0 := by omega
    have hna : attachedAfter t s.log = false := by
      refine not_attached h ?_
      rintro ⟨l, h1, h2, _⟩
      unfold account at hc0
      rw [h1] at hc0
      simp only [Option.getD_some] at hc0
      omega
    by_cases ha : o.attachErr ≠ 0
    · rw [if_pos ha] at he
      injection he with he
      subst he
      refine ⟨⟨OMap.sorted_assign h.sorted, orderly_snoc h.orderly hna, ?_⟩, rfl,
        fun t' ht => by show OMap.lookup t' (OMap.assign _ _ _) = _; rw [hlook, if_neg ht], ?_⟩
      · intro t'
        show attachedAfter t' (s.log ++ [_]) = true ↔ ∃ l, OMap.lookup t' (OMap.assign _ _ _) = some l ∧ _
        rw [attachedAfter_snoc, hlook]
        show attachedAfter t' s.log = true ↔ _
        by_cases ht : t' = t
        · subst ht
          rw [if_pos rfl, hna]
          constructor
          · intro h; cases h
          · rintro ⟨l, h1, _, h3⟩; cases h1; exact absurd h3 ha
        · rw [if_neg ht]; exact h.attached t'
      · refine ⟨_, by show OMap.lookup t (OMap.assign _ _ _) = _; rw [hlook, if_pos rfl], rfl, fun h0 => absurd hc0 h0, fun _ => ?_⟩
        exact ⟨fun h => absurd h ha, fun h => absurd h.1 ha⟩
    · rw [if_neg ha, Option.map_eq_some_iff] at he
      obtain ⟨⟨e, evs⟩, h1, h2⟩ := he
      subst h2
      obtain ⟨hn, hz⟩ := waitLoop_spec t o.waits e evs h1
      have o1 := orderly_snoc (r := .attach t true) h.orderly hna
      obtain ⟨o2, a2⟩ := neutral_append evs _ hn o1
      have a2' : ∀ t', attachedAfter t' (s.log ++ [.attach t true] ++ evs) = if t = t' then true else attachedAfter t' s.log := by
        intro t'; rw [a2, attachedAfter_snoc]; rfl
      have hsucc : e = 0 ↔ o.Succeeds := by
        have : o.attachErr = 0 := by omega
        unfold StopOutcome.Succeeds
        rw [hz]
        exact ⟨fun h => ⟨this, h⟩, fun h => h.2⟩
      refine ⟨⟨OMap.sorted_assign h.sorted, ?_, ?_⟩, rfl,
        fun t' ht => by show OMap.lookup t' (OMap.assign _ _ _) = _; rw [hlook, if_neg ht], ?_⟩
      · show Orderly (s.log ++ (.attach t true :: evs ++ if e = 0 then [] else [.sigcont t, .detach t]))
        rw [show s.log ++ (.attach t true :: evs ++ if e = 0 then [] else [.sigcont t, .detach t]) =
          (s.log ++ [.attach t true] ++ evs) ++ (if e = 0 then [] else [.sigcont t, .detach t]) by simp]
        by_cases he : e = 0
        · rw [if_pos he, List.append_nil]; exact o2
        · rw [if_neg he]
          have o3 := orderly_snoc (r := .sigcont t) o2 trivial
          have := orderly_snoc (r := .detach t) o3 (by
            show attachedAfter t _ = true
            rw [attachedAfter_snoc, a2', if_pos rfl]; rfl)
          simpa using this
      · intro t'
        show attachedAfter t' (s.log ++ (.attach t true :: evs ++ if e = 0 then [] else [.sigcont t, .detach t])) = true ↔
          ∃ l, OMap.lookup t' (OMap.assign _ _ _) = some l ∧ _
        rw [hlook, show s.log ++ (.attach t true :: evs ++ if e = 0 then [] else [.sigcont t, .detach t]) =
          (s.log ++ [.attach t true] ++ evs) ++ (if e = 0 then [] else [.sigcont t, .detach t]) by simp]
        by_cases he : e = 0
        · rw [if_pos he, List.append_nil, a2']
          by_cases ht : t' = t
          · subst ht
            rw [if_pos rfl, if_pos rfl]
            exact ⟨fun _ => ⟨_, rfl, by show 0 < (account s t').stopCount + 1; omega, he⟩, fun _ => rfl⟩
          · rw [if_neg ht, if_neg (fun h => ht h.symm)]; exact h.attached t'
        · rw [if_neg he, show (s.log ++ [.attach t true] ++ evs) ++ [.sigcont t, .detach t] =
            (s.log ++ [.attach t true] ++ evs) ++ [.sigcont t] ++ [.detach t] by simp, attachedAfter_snoc, attachedAfter_snoc, a2']
          show (if t = t' then false else (if t = t' then true else attachedAfter t' s.log)) = true ↔ _
          by_cases ht : t' = t
          · subst ht
            rw [if_pos rfl, if_pos rfl]
            constructor
            · intro h; cases h
            · rintro ⟨l, h1, _, h3⟩; cases h1; exact absurd h3 he
          · rw [if_neg ht, if_neg (fun h => ht h.symm), if_neg (fun h => ht h.symm)]; exact h.attached t'
      · refine ⟨_, by show OMap.lookup t (OMap.assign _ _ _) = _; rw [hlook, if_pos rfl], rfl, fun h0 => absurd hc0 h0, fun _ => hsucc⟩

theorem resume_spec {s : State} (t : Nat) (h : Sound s) :
    Sound (resume t s) ∧ (resume t s).pid = s.pid ∧ (∀ t', t' ≠ t → OMap.lookup t' (resume t s).lwps = OMap.lookup t' s.lwps) ∧
    OMap.lookup t (resume t s).lwps = (OMap.lookup t s.lwps).map (fun l => { l with stopCount := l.stopCount - 1 }) := by
  unfold resume
  cases hl : OMap.lookup t s.lwps with
  | none => exact ⟨h, rfl, fun _ _ => rfl, hl⟩
  | some l =>
    simp only
    have hlook : ∀ (v : Lwp) t', OMap.lookup t' (OMap.assign t v s.lwps) = if t' = t then some v else OMap.lookup t' s.lwps :=
      fun v t' => OMap.lookup_assign h.sorted
    have hrest : ∀ t', t' ≠ t → OMap.lookup t' (OMap.assign t { l with stopCount := l.stopCount - 1 } s.lwps) = OMap.lookup t' s.lwps :=
      fun t' ht => by rw [hlook, if_neg ht]
    have hself : OMap.lookup t (OMap.assign t { l with stopCount := l.stopCount - 1 } s.lwps) = some { l with stopCount := l.stopCount - 1 } := by
      rw [hlook, if_pos rfl]
    by_cases hc : l.stopCount - 1 ≠ 0
    · rw [if_pos hc]
      refine ⟨⟨OMap.sorted_assign h.sorted, h.orderly, ?_⟩, rfl, hrest, hself⟩
      intro t'
      refine (h.attached t').trans ?_
      show _ ↔ ∃ l', OMap.lookup t' (OMap.assign _ _ _) = some l' ∧ _
      by_cases ht : t' = t
      · subst ht
        rw [hself, hl]
        constructor
        · rintro ⟨l', h1, h2, h3⟩
          cases h1
          exact ⟨_, rfl, by show 0 < l.stopCount - 1; omega, h3⟩
        · rintro ⟨l', h1, h2, h3⟩
          cases h1
          have h2' : 0 < l.stopCount - 1 := h2
          exact ⟨l, rfl, by omega, h3⟩
      · rw [hrest t' ht]
    · rw [if_neg hc]
      by_cases he : l.ptraceErr ≠ 0
      · rw [if_pos he]
        refine ⟨⟨OMap.sorted_assign h.sorted, h.orderly, ?_⟩, rfl, hrest, hself⟩
        intro t'
        refine (h.attached t').trans ?_
        show _ ↔ ∃ l', OMap.lookup t' (OMap.assign _ _ _) = some l' ∧ _
        by_cases ht : t' = t
        · subst ht
          rw [hself, hl]
          constructor
          · rintro ⟨l', h1, h2, h3⟩; cases h1; exact absurd h3 he
          · rintro ⟨l', h1, h2, h3⟩; cases h1; exact absurd h3 he
        · rw [hrest t' ht]
      · rw [if_neg he]
        have hat : attachedAfter t s.log = true := (h.attached t).2 ⟨l, hl, by omega, by omega⟩
        refine ⟨⟨OMap.sorted_assign h.sorted, ?_, ?_⟩, rfl, hrest, hself⟩
        · have := orderly_snoc (r := .flush) (orderly_snoc (r := .detach t) h.orderly hat) trivial
          simpa using this
        · intro t'
          show attachedAfter t' (s.log ++ [.detach t, .flush]) = true ↔ ∃ l', OMap.lookup t' (OMap.assign _ _ _) = some l' ∧ _
          rw [show s.log ++ [.detach t, .flush] = s.log ++ [.detach t] ++ [.flush] by simp, attachedAfter_snoc, attachedAfter_snoc]
          show (if t = t' then false else attachedAfter t' s.log) = true ↔ _
          by_cases ht : t' = t
          · subst ht
            rw [if_pos rfl, hself]
            constructor
            · intro h; cases h
            · rintro ⟨l', h1, h2, h3⟩
              cases h1
              have h2' : 0 < l.stopCount - 1 := h2
              omega
          · rw [if_neg (fun h => ht h.symm), hrest t' ht]; exact h.attached t'

theorem resumeKeys_spec (ks : List Nat) : ∀ {s : State}, ks.Nodup → Sound s →
    Sound (resumeKeys ks s) ∧ (resumeKeys ks s).pid = s.pid ∧
    ∀ t, OMap.lookup t (resumeKeys ks s).lwps =
      if t ∈ ks then (OMap.lookup t s.lwps).map (fun l => { l with stopCount := l.stopCount - 1 }) else OMap.lookup t s.lwps := by
  induction ks with
  | nil => intro s _ h; exact ⟨h, rfl, fun t => by simp [resumeKeys]⟩
  | cons k ks ih =>
    intro s hnd h
    rw [List.nodup_cons] at hnd
    obtain ⟨h1, h2, h3, h4⟩ := resume_spec k h
    obtain ⟨g1, g2, g3⟩ := ih hnd.2 h1
    refine ⟨g1, g2.trans h2, fun t => ?_⟩
    show OMap.lookup t (resumeKeys ks (resume k s)).lwps = _
    rw [g3]
    by_cases ht : t = k
    · subst ht
      rw [if_neg hnd.1, if_pos (by simp), h4]
    · rw [h3 t ht]
      by_cases hm : t ∈ ks
      · rw [if_pos hm, if_pos (by simp [hm])]
      · rw [if_neg hm, if_neg (by simp [hm, ht])]

theorem sorted_keys_nodup {α : Type} {m : OMap α} (h : OMap.Sorted m) : (m.map (·.1)).Nodup := by
  unfold OMap.Sorted at h
  rw [List.Nodup, List.pairwise_map]
  exact h.imp (fun hab => Nat.ne_of_lt hab)

theorem lookup_none_iff {α : Type} {m : OMap α} {t : Nat} (hs : OMap.Sorted m) : OMap.lookup t m = none ↔ t ∉ m.map (·.1) := by
  constructor
  · intro h hm
    obtain ⟨e, h1, h2⟩ := List.mem_map.1 hm
    have := OMap.lookup_mem hs (show (t, e.2) ∈ m by rw [← h2]; exact h1)
    rw [h] at this; cases this
  · intro h
    cases hl : OMap.lookup t m with
    | none => rfl
    | some v => exact absurd (List.mem_map.2 ⟨(t, v), OMap.lookup_some hl, rfl⟩) h

theorem lookup_filter {α : Type} {m : OMap α} {t : Nat} (hs : OMap.Sorted m) (f : Nat × α → Bool) :
    OMap.lookup t (m.filter f) = (OMap.lookup t m).filter (fun v => f (t, v)) := by
  have hs' : OMap.Sorted (m.filter f) := List.Pairwise.filter f hs
  cases hl : OMap.lookup t m with
  | none =>
    rw [Option.filter_none, lookup_none_iff hs']
    intro hm
    obtain ⟨e, h1, h2⟩ := List.mem_map.1 hm
    exact (lookup_none_iff hs).1 hl (List.mem_map.2 ⟨e, (List.mem_filter.1 h1).1, h2⟩)
  | some v =>
    have hm := OMap.lookup_some hl
    by_cases hf : f (t, v) = true
    · rw [OMap.lookup_mem hs' (List.mem_filter.2 ⟨hm, hf⟩)]
      exact (Option.filter_eq_some_iff (p := fun v => f (t, v)).2 ⟨rfl, hf⟩).symm
    · rw [show (some v).filter (fun v => f (t, v)) = none by simp [hf], lookup_none_iff hs']
      intro hm'
      obtain ⟨e, h1, h2⟩ := List.mem_map.1 hm'
      obtain ⟨h3, h4⟩ := List.mem_filter.1 h1
      have := OMap.sorted_inj hs h3 hm h2
      rw [this] at h4
      exact hf h4

theorem resumeProcess_spec {s : State} (h : Sound s) :
    Sound (resumeProcess s) ∧ (resumeProcess s).pid = s.pid ∧
    ∀ t, OMap.lookup t (resumeProcess s).lwps =
      ((OMap.lookup t s.lwps).map (fun l => { l with stopCount := l.stopCount - 1 })).filter (fun l => decide (l.stopCount ≠ 0)) := by
  obtain ⟨g1, g2, g3⟩ := resumeKeys_spec (s.lwps.map (·.1)) (sorted_keys_nodup h.sorted) h
  have hlook : ∀ t, OMap.lookup t (resumeProcess s).lwps =
      ((OMap.lookup t s.lwps).map (fun l => { l with stopCount := l.stopCount - 1 })).filter (fun l => decide (l.stopCount ≠ 0)) := by
    intro t
    show OMap.lookup t ((resumeKeys (s.lwps.map (·.1)) s).lwps.filter _) = _
    rw [lookup_filter g1.sorted, g3]
    by_cases hm : t ∈ s.lwps.map (·.1)
    · rw [if_pos hm]
    · rw [if_neg hm, (lookup_none_iff h.sorted).2 hm]; rfl
  refine ⟨⟨List.Pairwise.filter _ g1.sorted, g1.orderly, ?_⟩, g2, hlook⟩
  intro t
  refine (g1.attached t).trans ?_
  rw [show (resumeProcess s).lwps = (resumeKeys (s.lwps.map (·.1)) s).lwps.filter (fun e => e.2.stopCount ≠ 0) from rfl, lookup_filter g1.sorted]
  constructor
  · rintro ⟨l, h1, h2, h3⟩
    refine ⟨l, ?_, h2, h3⟩
    rw [h1]
    have : l.stopCount ≠ 0 := by omega
    simp [this]
  · rintro ⟨l, h1, h2, h3⟩
    rw [Option.filter_eq_some_iff] at h1
    exact ⟨l, h1.1, h2, h3⟩

/-- A list of stops. -/
def stops (outs : Nat → StopOutcome) : List Nat → State → Option State
  | [], s => some s
  | t :: ts, s => (stop t (outs t) s).bind (stops outs ts)

theorem stops_append (outs : Nat → StopOutcome) (a b : List Nat) : ∀ s, stops outs (a ++ b) s = (stops outs a s).bind (stops outs b) := by
  induction a with
  | nil => intro s; rfl
  | cons t a ih =>
    intro s
    show (stop t (outs t) s).bind (stops outs (a ++ b)) = ((stop t (outs t) s).bind (stops outs a)).bind _
    cases stop t (outs t) s with
    | none => rfl
    | some s1 => exact ih s1

theorem scan_stops (outs : Nat → StopOutcome) (ts : List Nat) : ∀ sus s r, scan outs ts sus s = some r → sus.Nodup →
    ∃ new, r.1 = new.reverse ++ sus ∧ r.1.Nodup ∧ (∀ t, t ∈ r.1 ↔ t ∈ sus ∨ (t ≠ 0 ∧ t ∈ ts)) ∧ stops outs new s = some r.2 := by
  induction ts with
  | nil =>
    intro sus s r h hnd
    injection h with h
    subst h
    exact ⟨[], rfl, hnd, by simp, rfl⟩
  | cons x ts ih =>
    intro sus s r h hnd
    rw [scan] at h
    by_cases hx : x = 0 ∨ x ∈ sus
    · rw [if_pos hx] at h
      obtain ⟨new, h1, h2, h3, h4⟩ := ih sus s r h hnd
      refine ⟨new, h1, h2, ?_, h4⟩
      intro t
      rw [h3]
      constructor
      · rintro (h | ⟨h, h'⟩)
        · exact .inl h
        · exact .inr ⟨h, by simp [h']⟩
      · rintro (h | ⟨h, h'⟩)
        · exact .inl h
        · rcases List.mem_cons.1 h' with rfl | h'
          · rcases hx with hx | hx
            · exact absurd hx h
            · exact .inl hx
          · exact .inr ⟨h, h'⟩
    · rw [if_neg hx, Option.bind_eq_some_iff] at h
      obtain ⟨s1, e1, e2⟩ := h
      obtain ⟨new, h1, h2, h3, h4⟩ := ih (x :: sus) s1 r e2 (List.nodup_cons.2 ⟨fun h => hx (.inr h), hnd⟩)
      refine ⟨x :: new, by rw [h1]; simp, h2, ?_, ?_⟩
      · intro t
        rw [h3]
        constructor
        · rintro (h | ⟨h, h'⟩)
          · rcases List.mem_cons.1 h with rfl | h
            · exact .inr ⟨fun h0 => hx (.inl h0), by simp⟩
            · exact .inl h
          · exact .inr ⟨h, by simp [h']⟩
        · rintro (h | ⟨h, h'⟩)
          · exact .inl (by simp [h])
          · rcases List.mem_cons.1 h' with rfl | h'
            · exact .inl (by simp)
            · exact .inr ⟨h, h'⟩
      · show (stop x (outs x) s).bind (stops outs new) = _
        rw [e1]; exact h4

theorem scanLoop_stops (outs : Nat → StopOutcome) (scans : List (List Nat)) : ∀ sus s s', scanLoop outs scans sus s = some s' → sus.Nodup →
    ∃ new, (new.reverse ++ sus).Nodup ∧ (∀ t, t ∈ new.reverse ++ sus ↔ t ∈ sus ∨ (t ≠ 0 ∧ t ∈ scans.flatten)) ∧ stops outs new s = some s' := by
  induction scans with
  | nil => intro sus s s' h; cases h
  | cons ts more ih =>
    intro sus s s' h hnd
    rw [scanLoop, Option.bind_eq_some_iff] at h
    obtain ⟨r, e1, e2⟩ := h
    obtain ⟨new, h1, h2, h3, h4⟩ := scan_stops outs ts sus s r e1 hnd
    by_cases hlen : r.1.length = sus.length
    · rw [if_pos hlen] at e2
      by_cases hm : more = []
      · rw [if_pos hm] at e2
        injection e2 with e2
        subst e2
        subst hm
        exact ⟨new, by rw [← h1]; exact h2, fun t => by rw [← h1, h3]; simp, h4⟩
      · rw [if_neg hm] at e2; cases e2
    · rw [if_neg hlen] at e2
      obtain ⟨new2, g1, g2, g3⟩ := ih r.1 r.2 s' e2 h2
      refine ⟨new ++ new2, ?_, ?_, ?_⟩
      · rw [h1] at g1; simpa using g1
      · intro t
        have := g2 t
        rw [h1] at this
        have h3' := h3 t
        rw [h1] at h3'
        rw [List.reverse_append, List.append_assoc, this, h3', List.flatten_cons, List.mem_append]
        constructor
        · rintro ((h | ⟨h, h'⟩) | ⟨h, h'⟩)
          · exact .inl h
          · exact .inr ⟨h, .inl h'⟩
          · exact .inr ⟨h, .inr h'⟩
        · rintro (h | ⟨h, h' | h'⟩)
          · exact .inl (.inl h)
          · exact .inl (.inr ⟨h, h'⟩)
          · exact .inr ⟨h, h'⟩
      · rw [stops_append, h4]; exact g3

/-- Stopping the process is stopping each thread found, once. -/
theorem stopProcess_stops (outs : Nat → StopOutcome) (scans : List (List Nat)) (s s' : State) (h : stopProcess scans outs s = some s')
    (hpid : ∀ s1, stop s.pid (outs s.pid) s = some s1 → s1.pid = s.pid) :
    ∃ ts, ts.Nodup ∧ (∀ t, t ∈ ts ↔ t = s.pid ∨ (t ≠ 0 ∧ t ∈ scans.flatten)) ∧ stops outs ts s = some s' := by
  unfold stopProcess at h
  rw [Option.bind_eq_some_iff] at h
  obtain ⟨s1, e1, e2⟩ := h
  rw [hpid s1 e1] at e2
  obtain ⟨new, h1, h2, h3⟩ := scanLoop_stops outs scans [s.pid] s1 s' e2 (by simp)
  refine ⟨s.pid :: new, ?_, ?_, ?_⟩
  · have : (new.reverse ++ [s.pid]) = (s.pid :: new).reverse := by simp
    rw [this] at h1
    exact (List.reverse_perm (s.pid :: new)).nodup_iff.1 h1
  · intro t
    have := h2 t
    rw [show (new.reverse ++ [s.pid]) = (s.pid :: new).reverse by simp, List.mem_reverse] at this
    rw [this]; simp
  · show (stop s.pid (outs s.pid) s).bind (stops outs new) = _
    rw [e1]; exact h3

theorem stops_spec (outs : Nat → StopOutcome) (ts : List Nat) : ∀ {s s' : State}, ts.Nodup → Sound s → stops outs ts s = some s' →
    Sound s' ∧ s'.pid = s.pid ∧ (∀ t, t ∉ ts → OMap.lookup t s'.lwps = OMap.lookup t s.lwps) ∧
    ∀ t, t ∈ ts → ∃ l, OMap.lookup t s'.lwps = some l ∧ l.stopCount = (account s t).stopCount + 1 ∧
      ((account s t).stopCount ≠ 0 → l.ptraceErr = (account s t).ptraceErr) ∧
      ((account s t).stopCount = 0 → (l.ptraceErr = 0 ↔ (outs t).Succeeds)) := by
  induction ts with
  | nil => intro s s' _ h e; injection e with e; subst e; exact ⟨h, rfl, fun _ _ => rfl, fun t ht => by cases ht⟩
  | cons x ts ih =>
    intro s s' hnd h e
    rw [List.nodup_cons] at hnd
    change (stop x (outs x) s).bind (stops outs ts) = _ at e
    rw [Option.bind_eq_some_iff] at e
    obtain ⟨s1, e1, e2⟩ := e
    obtain ⟨h1, h2, h3, l, h4, h5⟩ := stop_spec h e1
    obtain ⟨g1, g2, g3, g4⟩ := ih hnd.2 h1 e2
    refine ⟨g1, g2.trans h2, ?_, ?_⟩
    · intro t ht
      simp at ht
      rw [g3 t ht.2, h3 t ht.1]
    · intro t ht
      rcases List.mem_cons.1 ht with rfl | ht
      · exact ⟨l, by rw [g3 t hnd.1]; exact h4, h5⟩
      · have hne : t ≠ x := fun h => hnd.1 (h ▸ ht)
        have : account s1 t = account s t := by unfold account; rw [h3 t hne]
        have := g4 t ht
        rwa [show account s1 t = account s t by unfold account; rw [h3 t hne]] at this

end Pstack.Props
