import Verif.Model.LiveScan
/-
C35: stopping a process whose threads go on running meanwhile.
-/
namespace Pstack.Props
open Pstack.LiveScan

structure ScanInv (w : World) : Prop where
  /-- every thread in `suspended` has been dealt with, or is being -/
  dealt : ∀ t ∈ w.suspended, t ∈ w.stopped ∨ t ∈ w.failed ∨ w.stopping = some t
  /-- failures are of threads that have ended -/
  failed : ∀ t ∈ w.failed, t ∈ w.used ∧ (t ∉ w.alive ∨ t ∈ w.ended)
  /-- stopped threads, and those that ended and stay, are there, unless the process was killed -/
  there : w.alive = [] ∨ ((∀ t ∈ w.stopped, t ∈ w.alive) ∧ ∀ t ∈ w.ended, t ∈ w.alive)
  /-- ids -/
  used : (∀ t ∈ w.alive, t ∈ w.used) ∧ (∀ t ∈ w.listed, t ∈ w.used) ∧ ∀ t, w.stopping = some t → t ∈ w.used
  /-- what was listed has been come to, or is to come -/
  listed : ∀ t ∈ w.listed, t ∈ w.suspended ∨ t ∈ w.queue
  queued : ∀ t ∈ w.queue, t ∈ w.listed
  grows : ∃ new, w.suspended = new ++ w.before
  /-- threads known before this reading and listed in it are stopped, or have ended and stay -/
  old : ∀ t ∈ w.listed, t ∈ w.before → t ∈ w.stopped ∨ t ∈ w.ended
  idle : w.done = true → w.stopping = none

theorem scanInv_initial (pid : Nat) (threads : List Nat) (hp : pid ∈ threads) : ScanInv (initial pid threads) where
  dealt := by
    intro t ht
    have : t = pid := by simpa [initial] using ht
    right; right; rw [this]; rfl
  failed := (fun t ht => nomatch ht)
  there := .inr ⟨(fun t ht => nomatch ht), (fun t ht => nomatch ht)⟩
  used := ⟨fun t ht => ht, (fun t ht => nomatch ht), fun t ht => by
    have : some pid = some t := ht
    injection this with this
    rw [← this]; exact hp⟩
  listed := (fun t ht => nomatch ht)
  queued := (fun t ht => nomatch ht)
  grows := ⟨[], rfl⟩
  old := (fun t ht => nomatch ht)
  idle := fun h => nomatch h

theorem scanInv_step {endOk : World → Prop} {w w' : World} (h : ScanInv w) (st : Step endOk OnlyEnded w w') : ScanInv w' := by
  cases st with
  | create p t h1 h2 h3 h4 =>
    refine ⟨h.dealt, ?_, ?_, ?_, h.listed, h.queued, h.grows, h.old, h.idle⟩
    · intro x hx
      obtain ⟨g1, g2⟩ := h.failed x hx
      refine ⟨List.mem_cons_of_mem _ g1, ?_⟩
      rcases g2 with g2 | g2
      · left
        intro hm
        rcases List.mem_append.1 hm with hm | hm
        · exact g2 hm
        · simp at hm; subst hm; exact h4 g1
      · exact .inr g2
    · right
      rcases h.there with g | g
      · rw [g] at h1; cases h1
      · exact ⟨fun x hx => List.mem_append_left _ (g.1 x hx), fun x hx => List.mem_append_left _ (g.2 x hx)⟩
    · refine ⟨?_, fun x hx => List.mem_cons_of_mem _ (h.used.2.1 x hx), fun x hx => List.mem_cons_of_mem _ (h.used.2.2 x hx)⟩
      intro x hx
      rcases List.mem_append.1 hx with hx | hx
      · exact List.mem_cons_of_mem _ (h.used.1 x hx)
      · simp at hx; subst hx; exact List.mem_cons_self
  | exit p h1 h2 =>
    refine ⟨h.dealt, ?_, ?_, ?_, h.listed, h.queued, h.grows, h.old, h.idle⟩
    · intro x hx
      obtain ⟨g1, g2⟩ := h.failed x hx
      refine ⟨g1, ?_⟩
      rcases g2 with g2 | g2
      · exact .inl (fun hm => g2 (List.mem_filter.1 hm).1)
      · exact .inr g2
    · rcases h.there with g | g
      · left; show w.alive.filter _ = []; rw [g]; rfl
      · right
        refine ⟨fun x hx => List.mem_filter.2 ⟨g.1 x hx, ?_⟩, fun x hx => List.mem_filter.2 ⟨g.2 x hx, ?_⟩⟩
        · simp; intro he; subst he; exact h1 hx
        · simp; intro he; subst he; exact h2 hx
    · exact ⟨fun x hx => h.used.1 x (List.mem_filter.1 hx).1, h.used.2⟩
  | zombie p h1 h2 =>
    refine ⟨h.dealt, ?_, ?_, h.used, h.listed, h.queued, h.grows, ?_, h.idle⟩
    · intro x hx
      obtain ⟨g1, g2⟩ := h.failed x hx
      exact ⟨g1, g2.imp id (List.mem_cons_of_mem _)⟩
    · rcases h.there with g | g
      · exact .inl g
      · refine .inr ⟨g.1, ?_⟩
        intro x hx
        rcases List.mem_cons.1 hx with rfl | hx
        · exact h1
        · exact g.2 x hx
    · intro x hx hb
      exact (h.old x hx hb).imp id (List.mem_cons_of_mem _)
  | kill =>
    refine ⟨h.dealt, ?_, .inl rfl, ⟨(fun x hx => nomatch hx), h.used.2⟩, h.listed, h.queued, h.grows, h.old, h.idle⟩
    intro x hx
    exact ⟨(h.failed x hx).1, .inl (fun hm => nomatch hm)⟩
  | list t h1 h2 h3 =>
    refine ⟨h.dealt, h.failed, h.there, ?_, ?_, ?_, h.grows, ?_, h.idle⟩
    · refine ⟨h.used.1, ?_, h.used.2.2⟩
      intro x hx
      rcases List.mem_cons.1 hx with rfl | hx
      · exact h.used.1 x h3
      · exact h.used.2.1 x hx
    · intro x hx
      rcases List.mem_cons.1 hx with rfl | hx
      · right; exact List.mem_append_right _ (by simp)
      · exact (h.listed x hx).imp id (List.mem_append_left _)
    · intro x hx
      rcases List.mem_append.1 hx with hx | hx
      · exact List.mem_cons_of_mem _ (h.queued x hx)
      · simp at hx; subst hx; exact List.mem_cons_self
    · intro x hx hb
      rcases List.mem_cons.1 hx with rfl | hx
      · obtain ⟨new, hg⟩ := h.grows
        rcases h.dealt x (by rw [hg]; exact List.mem_append_right _ hb) with g | g | g
        · exact .inl g
        · rcases (h.failed x g).2 with g | g
          · exact absurd h3 g
          · exact .inr g
        · rw [h2] at g; cases g
      · exact h.old x hx hb
  | known t q h1 h2 h3 h4 =>
    refine ⟨h.dealt, h.failed, h.there, h.used, ?_, ?_, h.grows, h.old, h.idle⟩
    · intro x hx
      rcases h.listed x hx with g | g
      · exact .inl g
      · rw [h3] at g
        rcases List.mem_cons.1 g with rfl | g
        · exact .inl h4
        · exact .inr g
    · intro x hx
      exact h.queued x (by rw [h3]; exact List.mem_cons_of_mem _ hx)
  | fresh t q h1 h2 h3 h4 =>
    have htq : t ∈ w.listed := h.queued t (by rw [h3]; exact List.mem_cons_self)
    refine ⟨?_, h.failed, h.there, ?_, ?_, ?_, ?_, h.old, ?_⟩
    · intro x hx
      rcases List.mem_cons.1 hx with rfl | hx
      · exact .inr (.inr rfl)
      · rcases h.dealt x hx with g | g | g
        · exact .inl g
        · exact .inr (.inl g)
        · rw [h2] at g; cases g
    · refine ⟨h.used.1, h.used.2.1, ?_⟩
      intro x hx
      have : some t = some x := hx
      injection this with this
      rw [← this]; exact h.used.2.1 t htq
    · intro x hx
      rcases h.listed x hx with g | g
      · exact .inl (List.mem_cons_of_mem _ g)
      · rw [h3] at g
        rcases List.mem_cons.1 g with rfl | g
        · exact .inl List.mem_cons_self
        · exact .inr g
    · intro x hx
      exact h.queued x (by rw [h3]; exact List.mem_cons_of_mem _ hx)
    · obtain ⟨new, hg⟩ := h.grows
      exact ⟨t :: new, by show t :: w.suspended = _; rw [hg]; rfl⟩
    · intro hd
      exact absurd (show w.done = true from hd) (by rw [h1]; simp)
  | stopOk t h1 h2 h3 =>
    refine ⟨?_, h.failed, ?_, ⟨h.used.1, h.used.2.1, (fun x hx => nomatch hx)⟩, h.listed, h.queued, h.grows, ?_, fun _ => rfl⟩
    · intro x hx
      rcases h.dealt x hx with g | g | g
      · exact .inl (List.mem_cons_of_mem _ g)
      · exact .inr (.inl g)
      · rw [h1] at g; injection g with g; subst g; exact .inl List.mem_cons_self
    · rcases h.there with g | g
      · exact .inl g
      · refine .inr ⟨?_, g.2⟩
        intro x hx
        rcases List.mem_cons.1 hx with rfl | hx
        · exact h2
        · exact g.1 x hx
    · intro x hx hb
      exact (h.old x hx hb).imp (List.mem_cons_of_mem _) id
  | stopFail t h1 h2 =>
    refine ⟨?_, ?_, h.there, ⟨h.used.1, h.used.2.1, (fun x hx => nomatch hx)⟩, h.listed, h.queued, h.grows, h.old, fun _ => rfl⟩
    · intro x hx
      rcases h.dealt x hx with g | g | g
      · exact .inl g
      · exact .inr (.inl (List.mem_cons_of_mem _ g))
      · rw [h1] at g; injection g with g; subst g; exact .inr (.inl List.mem_cons_self)
    · intro x hx
      rcases List.mem_cons.1 hx with rfl | hx
      · exact ⟨h.used.2.2 x h1, h2⟩
      · exact h.failed x hx
  | again h1 h2 h3 h4 h5 =>
    refine ⟨h.dealt, h.failed, h.there, ⟨h.used.1, (fun x hx => nomatch hx), h.used.2.2⟩, (fun x hx => nomatch hx), ?_, ⟨[], rfl⟩, (fun x hx => nomatch hx), h.idle⟩
    intro x hx
    have : x ∈ w.queue := hx
    rw [h3] at this; cases this
  | finish h1 h2 h3 h4 h5 => exact ⟨h.dealt, h.failed, h.there, h.used, h.listed, h.queued, h.grows, h.old, fun _ => h2⟩

theorem scanInv_steps {endOk : World → Prop} {a b : World} (st : Steps endOk OnlyEnded a b) (h : ScanInv a) : ScanInv b := by
  induction st with
  | refl => exact h
  | step _ s ih => exact scanInv_step ih s

/-- **C35.** Whatever the threads of the process do meanwhile: at the moment stopping it is over, every thread there is has been
stopped, or had ended, with the failure to stop it recorded. -/
theorem C35_all_stopped (pid : Nat) (threads : List Nat) (hp : pid ∈ threads) (w w' : World)
    (hr : Steps LinuxEnd OnlyEnded (initial pid threads) w) (st : Step LinuxEnd OnlyEnded w w') (h0 : w.done = false) (h1 : w'.done = true) :
    ∀ t ∈ w'.alive, t ∈ w'.stopped ∨ (t ∈ w'.ended ∧ t ∈ w'.failed) := by
  have hi := scanInv_steps hr (scanInv_initial pid threads hp)
  cases st with
  | create p t => exact absurd (show w.done = true from h1) (by rw [h0]; simp)
  | exit p => exact absurd (show w.done = true from h1) (by rw [h0]; simp)
  | zombie p => exact absurd (show w.done = true from h1) (by rw [h0]; simp)
  | kill => exact absurd (show w.done = true from h1) (by rw [h0]; simp)
  | list t => exact absurd (show w.done = true from h1) (by rw [h0]; simp)
  | known t => exact absurd (show w.done = true from h1) (by rw [h0]; simp)
  | fresh t => exact absurd (show w.done = true from h1) (by rw [h0]; simp)
  | stopOk t => exact absurd (show w.done = true from h1) (by rw [h0]; simp)
  | stopFail t => exact absurd (show w.done = true from h1) (by rw [h0]; simp)
  | again => exact absurd (show w.done = true from h1) (by rw [h0]; simp)
  | finish g1 g2 g3 g4 g5 =>
    obtain ⟨new, hg⟩ := hi.grows
    have hb : w.suspended = w.before := by
      have := congrArg List.length hg
      rw [List.length_append] at this
      have hn : new = [] := List.eq_nil_of_length_eq_zero (by omega)
      rw [hg, hn]; rfl
    have hsus : ∀ t ∈ w.listed, t ∈ w.before := by
      intro t ht
      rcases hi.listed t ht with h | h
      · rw [← hb]; exact h
      · rw [g3] at h; cases h
    intro t ht
    have ht' : t ∈ w.alive := ht
    have hall : ∀ t ∈ w.alive, t ∈ w.listed := by
      rcases g4 with g | ⟨x, hx1, hx2⟩
      · exact g
      · rcases hi.there with h | h
        · rw [h] at ht'; cases ht'
        · rcases hi.old x hx1 (hsus x hx1) with h' | h'
          · exact absurd (h.1 x h') hx2
          · exact absurd (h.2 x h') hx2
    have hl := hall t ht'
    have hbef := hsus t hl
    rcases hi.old t hl hbef with h | h
    · exact .inl h
    · rcases hi.dealt t (by rw [hb]; exact hbef) with d | d | d
      · exact .inl d
      · exact .inr ⟨h, d⟩
      · rw [g2] at d; cases d

/-- Nothing is running. -/
def Quiet (w : World) : Prop := w.done = true ∧ w.stopping = none ∧ ∀ t ∈ w.alive, t ∈ w.stopped ∨ t ∈ w.ended

/-- Once all is stopped, and done, nothing starts again. -/
theorem quiet_step {w w' : World} (hq : Quiet w) (st : Step LinuxEnd OnlyEnded w w') : Quiet w' := by
  obtain ⟨hd, hi, hq⟩ := hq
  cases st with
  | create p t h1 h2 h3 h4 =>
    rcases hq p h1 with h | h
    · exact absurd h h2
    · exact absurd h h3
  | exit p => exact ⟨hd, hi, fun t ht => hq t (List.mem_filter.1 ht).1⟩
  | zombie p => exact ⟨hd, hi, fun t ht => (hq t ht).imp id (List.mem_cons_of_mem _)⟩
  | kill => exact ⟨hd, hi, (fun t ht => nomatch ht)⟩
  | list t h1 => rw [hd] at h1; cases h1
  | known t q h1 => rw [hd] at h1; cases h1
  | fresh t q h1 => rw [hd] at h1; cases h1
  | stopOk t h1 => rw [hi] at h1; cases h1
  | stopFail t h1 => rw [hi] at h1; cases h1
  | again h1 => rw [hd] at h1; cases h1
  | finish h1 => rw [hd] at h1; cases h1

/-- **C35.** And no thread is running then or at any later time: none escapes. -/
theorem C35_none_escapes (pid : Nat) (threads : List Nat) (hp : pid ∈ threads) (w w' w'' : World)
    (hr : Steps LinuxEnd OnlyEnded (initial pid threads) w) (st : Step LinuxEnd OnlyEnded w w') (h0 : w.done = false) (h1 : w'.done = true)
    (later : Steps LinuxEnd OnlyEnded w' w'') : ∀ t ∈ w''.alive, t ∈ w''.stopped ∨ t ∈ w''.ended := by
  have hall := C35_all_stopped pid threads hp w w' hr st h0 h1
  have hi := scanInv_step (scanInv_steps hr (scanInv_initial pid threads hp)) st
  have hq : Quiet w' := ⟨h1, hi.idle h1, fun t ht => (hall t ht).imp id (·.1)⟩
  have : Quiet w'' := by
    induction later with
    | refl => exact hq
    | step _ s ih => exact quiet_step ih s
  exact this.2.2

/-- **C35, example.** Thread 2 has been listed, creates thread 3 and ends, before it can be stopped; the reading ends early, the next
finds 3, the last nothing new. -/
theorem C35_example : ∃ w w', Steps LinuxEnd OnlyEnded (initial 1 [1, 2]) w ∧ Step LinuxEnd OnlyEnded w w' ∧ w.done = false ∧ w'.done = true ∧
    w'.alive = [1, 3] ∧ (∀ t ∈ w'.alive, t ∈ w'.stopped) := by
  have s0 := Steps.refl (endOk := LinuxEnd) (failOk := OnlyEnded) (initial 1 [1, 2])
  have s1 := s0.step (Step.stopOk _ 1 rfl (by decide) (by decide))
  have s2 := s1.step (Step.list _ 1 rfl rfl (by decide))
  have s3 := s2.step (Step.list _ 2 rfl rfl (by decide))
  have s4 := s3.step (Step.known _ 1 [2] rfl rfl rfl (by decide))
  have s5 := s4.step (Step.create _ 2 3 (by decide) (by decide) (by decide) (by decide))
  have s6 := s5.step (Step.exit _ 2 (by decide) (by decide))
  have s7 := s6.step (Step.fresh _ 2 [] rfl rfl rfl (by decide))
  have s8 := s7.step (Step.stopFail _ 2 rfl (.inl (by decide)))
  have s9 := s8.step (Step.again _ rfl rfl rfl (.inr ⟨2, by decide, by decide⟩) (by decide))
  have s10 := s9.step (Step.list _ 1 rfl rfl (by decide))
  have s11 := s10.step (Step.list _ 3 rfl rfl (by decide))
  have s12 := s11.step (Step.known _ 1 [3] rfl rfl rfl (by decide))
  have s13 := s12.step (Step.fresh _ 3 [] rfl rfl rfl (by decide))
  have s14 := s13.step (Step.stopOk _ 3 rfl (by decide) (by decide))
  have s15 := s14.step (Step.again _ rfl rfl rfl (.inl (by decide)) (by decide))
  have s16 := s15.step (Step.list _ 1 rfl rfl (by decide))
  have s17 := s16.step (Step.list _ 3 rfl rfl (by decide))
  have s18 := s17.step (Step.known _ 1 [3] rfl rfl rfl (by decide))
  have s19 := s18.step (Step.known _ 3 [] rfl rfl rfl (by decide))
  exact ⟨_, _, s19, Step.finish _ rfl rfl rfl (.inl (by decide)) rfl, rfl, rfl, rfl, by decide⟩

/-- **C35 needs the stops to work.** If stopping thread 2 can fail although it is running (say, another tracer has it), 2 may create 3
and end while the last reading is at work, which then ends without listing 3: a thread runs that pstack never heard of. -/
theorem C35_not_refused : ∃ w, Steps LinuxEnd AnyReason (initial 1 [1, 2]) w ∧ w.done = true ∧
    ∃ t ∈ w.alive, t ∉ w.stopped ∧ t ∉ w.failed ∧ t ∉ w.suspended := by
  have s0 := Steps.refl (endOk := LinuxEnd) (failOk := AnyReason) (initial 1 [1, 2])
  have s1 := s0.step (Step.stopOk _ 1 rfl (by decide) (by decide))
  have s2 := s1.step (Step.list _ 1 rfl rfl (by decide))
  have s3 := s2.step (Step.list _ 2 rfl rfl (by decide))
  have s4 := s3.step (Step.known _ 1 [2] rfl rfl rfl (by decide))
  have s5 := s4.step (Step.fresh _ 2 [] rfl rfl rfl (by decide))
  have s6 := s5.step (Step.stopFail _ 2 rfl trivial)
  have s7 := s6.step (Step.again _ rfl rfl rfl (.inl (by decide)) (by decide))
  have s8 := s7.step (Step.list _ 1 rfl rfl (by decide))
  have s9 := s8.step (Step.list _ 2 rfl rfl (by decide))
  have s10 := s9.step (Step.known _ 1 [2] rfl rfl rfl (by decide))
  have s11 := s10.step (Step.known _ 2 [] rfl rfl rfl (by decide))
  have s12 := s11.step (Step.create _ 2 3 (by decide) (by decide) (by decide) (by decide))
  have s13 := s12.step (Step.exit _ 2 (by decide) (by decide))
  have s14 := s13.step (Step.finish _ rfl rfl rfl (.inr ⟨2, by decide, by decide⟩) rfl)
  exact ⟨_, s14, rfl, 3, by decide, by decide, by decide, by decide⟩

end Pstack.Props
