import Verif.Proof.PythonRender
/-
Frames, threads and interpreters.
-/
namespace Pstack.Python
open Pstack.Spec

/-! ### Frames -/

theorem frameScript_at {cfg : Config} {mem : Mem} {a t : Nat} {func file : List Byte} {line : Int} {back : Nat} {ty : TypeObj} {size : Int} (ha : cfg.doargs = false) (hl : cfg.dolocals = false)
    (h : FrameAt cfg mem a func file line back) {buf : List Byte} (hobj : ObjAt cfg mem a t ty size)
    (hsz : cfg.lay.f_back + 8 ≤ objBytes ty size ∧ cfg.lay.f_code + 8 ≤ objBytes ty size ∧ cfg.lay.f_locals + 8 ≤ objBytes ty size ∧ cfg.lay.f_lasti + 4 ≤ objBytes ty size)
    (hb : bytesAt mem a (objBytes ty size) = some buf) :
    frameScript cfg mem buf a = ⟨[.indent, .say (textOf func), .say " in ".toList, .say (textOf file), .say ":".toList, .say (toString line).toList, .say "\n".toList], .ok back⟩ := by
  obtain ⟨c, steps, lasti, first, table, n, f, hc0, hc, hlasti, hcp, s1, s2, s3, s4, hfirst, htable, hn, hf, hlines, hsteps, hline, hfunc, hfile⟩ := h.code
  obtain ⟨l, hl1, hl2⟩ := readObj_present hcp
  obtain ⟨x1, hx1, hx1'⟩ := intField_at (by omega) hb hlasti hsz.2.2.2
  obtain ⟨x2, hx2, hx2'⟩ := intField_at (by omega) hl2 hfirst s1
  have hloc : ∃ y, field buf cfg.lay.f_locals 8 = .ok y := by
    refine ⟨num ((buf.drop cfg.lay.f_locals).take 8), ?_⟩
    unfold field
    rw [if_pos (by rw [bytesAt_length hb]; exact hsz.2.2.1)]
  obtain ⟨y, hy⟩ := hloc
  have hcode : codeScript cfg mem buf c a = ⟨[.indent, .say (textOf func), .say " in ".toList, .say (textOf file), .say ":".toList, .say (toString line).toList, .say "\n".toList], .ok ()⟩ := by
    unfold codeScript
    rw [hx1, Script.bind_lift, hl1, Script.bind_lift, hx2, Script.bind_lift, field_at hl2 htable s2, Script.bind_lift, hx1', hx2', getLine_at hlines hsteps, Script.bind_lift,
      field_at hl2 hn s3, Script.bind_lift, pyString_at hfunc, Script.bind_lift, field_at hl2 hf s4, Script.bind_lift, pyString_at hfile, Script.bind_lift]
    simp [ha, hl, say, sayText, dec, hline]
  unfold frameScript
  rw [field_at hb hc hsz.2.1, Script.bind_lift, hy, Script.bind_lift, field_at hb h.back hsz.1, Script.bind_lift, if_pos hc0, hcode]
  simp [hl]

theorem frames_run {cfg : Config} {mem : Mem} (ha : cfg.doargs = false) (hl : cfg.dolocals = false) {d : Nat} : ∀ (l : List FrameInfo) (a : Nat) (S : List Nat), FramesAt cfg mem a l →
    (l.map (·.addr)).Nodup → (∀ x ∈ l.map (·.addr), x ∉ S) →
    Writes cfg mem d S (fun n => loop cfg mem n a) (framesText d l) ((l.map (·.addr)).reverse ++ S)
  | [], a, S, h, _, _ => by
      intro st hd hS ht
      cases h
      exact ⟨1, st, by simp [loop], by simp [framesText], rfl, by simpa using hS, ht⟩
  | f :: l, a, S, h, hn, hs => by
      intro st hd hS ht
      obtain ⟨rfl, back, hf, hrest⟩ := h
      obtain ⟨ty, size, ⟨tp, hobj, hpr⟩, s1, s2, s3, s4, _⟩ := hf.obj
      obtain ⟨st1, buf, h1, h2, h3, h4, h5, h6⟩ := round_call hobj (printerOf_some hpr) st ht (fun _ => by rw [hS]; exact hs _ (by simp))
      have hscr := frameScript_at ha hl hf hobj ⟨s1, s2, s3, s4⟩ h2
      have hscr' : script cfg mem ty buf f.addr st.depth .frame = frameScript cfg mem buf f.addr := rfl
      rw [hscr', hscr] at h1
      have hne : f.addr ≠ 0 := hobj.notNull
      generalize hst2 : ((((((st1.put (prefixText st1.depth)).put (textOf f.func)).put " in ".toList).put (textOf f.file)).put ":".toList).put (toString f.line).toList).put "\n".toList = st2
      have hv2 : st2.visited = f.addr :: S := by rw [← hst2]; show st1.visited = _; rw [h5, hS]; rfl
      have hd2 : st2.depth = d := by rw [← hst2]; show st1.depth = _; rw [h4]; exact hd
      obtain ⟨N, st3, h7, h8⟩ := frames_run ha hl l back (f.addr :: S) hrest (by simp only [List.map_cons, List.nodup_cons] at hn; exact hn.2) (fun x hx => by
        simp only [List.map_cons, List.nodup_cons] at hn
        intro hm
        rcases List.mem_cons.1 hm with rfl | hm
        · exact hn.1 hx
        · exact hs x (List.mem_cons_of_mem _ hx) hm) st2 hd2 hv2 (by rw [← hst2]; exact h6)
      refine ⟨N + 1, st3, ?_, ?_, ?_, ?_, h8.types⟩
      · show loop cfg mem (N + 1) f.addr st = _
        unfold loop
        rw [if_neg hne, h1]
        simp only [runActs]
        rw [hst2]
        exact h7
      · rw [h8.out, ← hst2]
        show st1.out ++ prefixText st1.depth ++ textOf f.func ++ " in ".toList ++ textOf f.file ++ ":".toList ++ (toString f.line).toList ++ "\n".toList ++ framesText d l = _
        rw [h3, prefixText_eq (h4.trans hd)]
        simp [framesText, List.append_assoc]
      · rw [h8.depth, hd2, hd]
      · rw [h8.visited]; simp

theorem frames_print {cfg : Config} {mem : Mem} (ha : cfg.doargs = false) (hl : cfg.dolocals = false) {d : Nat} (hd : d ≤ 10000) {l : List FrameInfo} {a : Nat} {S : List Nat}
    (h : FramesAt cfg mem a l) (hn : (l.map (·.addr)).Nodup) (hs : ∀ x ∈ l.map (·.addr), x ∉ S) :
    Writes cfg mem d S (fun n => print cfg mem n a) (framesText (d + 1) l) ((l.map (·.addr)).reverse ++ S) := by
  intro st hd1 hS ht
  obtain ⟨N, st1, h1, h2⟩ := frames_run ha hl (d := d + 1) l a S h hn hs { st with depth := st.depth + 1 } (by show st.depth + 1 = _; rw [hd1]; omega) hS ht
  refine ⟨N, { st1 with depth := st1.depth - 1 }, ?_, h2.out, ?_, h2.visited, h2.types⟩
  · show printWith (loop cfg mem N) a st = _
    unfold printWith
    have h1' : loop cfg mem N a { st with depth := st.depth + 1 } = some (.ok st1) := h1
    rw [if_neg (by omega), h1']
  · show st1.depth - 1 = _
    rw [h2.depth]
    show st.depth + 1 - 1 = _
    omega

/-! ### Threads -/

/-- After `printThread` and the like. -/
def WritesNext (cfg : Config) (mem : Mem) (d : Nat) (S : List Nat) (f : Nat → St → Option (Res (St × Nat))) (t : Text) (S' : List Nat) (next : Nat) : Prop :=
  ∀ st : St, st.depth = d → st.visited = S → TypesOk cfg mem st.types → ∃ N st', f N st = some (.ok (st', next)) ∧ Wrote cfg mem st t S' st'

theorem thread_writes {cfg : Config} {mem : Mem} (ha : cfg.doargs = false) (hl : cfg.dolocals = false) {d : Nat} (hd : d ≤ 10000) {th : ThreadInfo} {next : Nat} {S : List Nat}
    (h : ThreadAt cfg mem th next) (hn : (th.frames.map (·.addr)).Nodup) (hs : ∀ x ∈ th.frames.map (·.addr), x ∉ S) :
    WritesNext cfg mem d S (fun n => printThread cfg mem n th.addr) (threadText (d + 1) th) ((th.frames.map (·.addr)).reverse ++ S) next := by
  intro st hd1 hS ht
  obtain ⟨l, hl1, hl2⟩ := readObj_present h.present
  obtain ⟨id, hid, htitle⟩ := h.id
  obtain ⟨f, hf, hframes⟩ := h.frame
  obtain ⟨N, st1, h1, h2⟩ := frames_print ha hl hd hframes hn hs ((st.put th.title).put "\n".toList) hd1 hS ht
  refine ⟨N, st1, ?_, ?_, h2.depth, h2.visited, h2.types⟩
  · have hfields : threadFields cfg mem th.addr = .ok (id, f, next) := by
      unfold threadFields
      rw [hl1, Res.bind_ok, field_at hl2 hid h.sizes.1, Res.bind_ok, field_at hl2 hf h.sizes.2.1, Res.bind_ok, field_at hl2 h.next h.sizes.2.2, Res.bind_ok]
      rfl
    have htext : threadTitle cfg mem id = .ok th.title := by
      unfold threadTitle
      rcases htitle with ⟨h0, ht⟩ | ⟨h0, ht⟩ | ⟨off, tid, h0, ho, hfit, htid, ht⟩
      · rw [ht]
        cases cfg.tidOffset with
        | none => rfl
        | some off => dsimp only; rw [if_neg (by simp [h0])]; rfl
      · rw [h0, ht]; rfl
      · rw [ho]
        obtain ⟨l, hl1, hl2⟩ := readObj_present (numAt_present htid.2.2)
        have e := int_at (off := 0) (w := 4) (by decide) hl2 (by simpa using htid) (by omega)
        rw [List.drop_zero, List.take_of_length_le (Nat.le_of_eq (bytesAt_length hl2))] at e
        dsimp only
        rw [if_pos h0, Nat.mod_eq_of_lt (by unfold W64; omega), hl1, Res.bind_ok, e, ht]
        rfl
    show printThread cfg mem N th.addr st = _
    unfold printThread
    rw [hfields]
    dsimp only
    rw [htext]
    dsimp only
    have h1' : print cfg mem N f ((st.put th.title).put "\n".toList) = some (.ok st1) := h1
    rw [h1']
    rfl
  · rw [h2.out]
    show st.out ++ th.title ++ "\n".toList ++ _ = _
    simp [threadText, List.append_assoc]

theorem withNext_print {cfg : Config} {mem : Mem} {n m a next : Nat} {st : St} {r : Res (St × Nat)} (hle : n ≤ m) (h : withNext next (print cfg mem n a st) = some r) :
    withNext next (print cfg mem m a st) = some r := by
  cases hp : print cfg mem n a st with
  | none => rw [hp] at h; cases h
  | some x => rw [hp] at h; rw [print_mono hle hp]; exact h

theorem withNext_some {next : Nat} {x : Res St} : ∃ r, withNext next (some x) = some r := by cases x <;> exact ⟨_, rfl⟩

theorem printThread_mono {cfg : Config} {mem : Mem} {n m a : Nat} {st : St} {r : Res (St × Nat)} (hle : n ≤ m) (h : printThread cfg mem n a st = some r) :
    printThread cfg mem m a st = some r := by
  unfold printThread at h ⊢
  generalize threadFields cfg mem a = x at h ⊢
  cases x with
  | ok f =>
      dsimp only at h ⊢
      generalize threadTitle cfg mem f.1 = y at h ⊢
      cases y with
      | ok t => exact withNext_print hle h
      | exc => exact h
      | ub => exact h
      | abort => exact h
  | exc => exact h
  | ub => exact h
  | abort => exact h

theorem threadLoop_mono {cfg : Config} {mem : Mem} {n m : Nat} (hle : n ≤ m) : ∀ (k j : Nat) (T : List Nat) (a : Nat) (st : St) (r : Res St), k ≤ j → threadLoop cfg mem n k T a st = some r →
    threadLoop cfg mem m j T a st = some r
  | 0, _, _, _, _, _, _, h => by simp [threadLoop] at h
  | k + 1, 0, _, _, _, _, hk, _ => by omega
  | k + 1, j + 1, T, a, st, r, hk, h => by
      unfold threadLoop at h ⊢
      by_cases ha : a = 0
      · rw [if_pos ha] at h ⊢; exact h
      · rw [if_neg ha] at h ⊢
        cases hp : printThread cfg mem n a st with
        | none => rw [hp] at h; cases h
        | some x =>
            rw [hp] at h
            rw [printThread_mono hle hp]
            cases x with
            | ok p =>
                dsimp only at h ⊢
                by_cases h1 : p.2 ∈ T
                · rw [if_pos h1] at h ⊢; exact h
                · rw [if_neg h1] at h ⊢
                  by_cases h2 : 128 < (p.2 :: T).length
                  · rw [if_pos h2] at h ⊢; exact h
                  · rw [if_neg h2] at h ⊢
                    exact threadLoop_mono hle k j _ _ _ r (by omega) h
            | exc => exact h
            | ub => exact h
            | abort => exact h

/-- The frames of some threads. -/
def threadFrames (l : List ThreadInfo) : List Nat := l.flatMap fun th => th.frames.map (·.addr)

/-- What is seen after threads have been printed. -/
def seenAfter : List ThreadInfo → List Nat → List Nat
  | [], S => S
  | th :: l, S => seenAfter l ((th.frames.map (·.addr)).reverse ++ S)

theorem seenAfter_mem : ∀ (l : List ThreadInfo) (S : List Nat) (x : Nat), x ∈ seenAfter l S ↔ x ∈ threadFrames l ∨ x ∈ S
  | [], S, x => by simp [seenAfter, threadFrames]
  | th :: l, S, x => by
      have h2 : threadFrames (th :: l) = th.frames.map (·.addr) ++ threadFrames l := by simp [threadFrames]
      rw [seenAfter, seenAfter_mem l, h2]
      simp only [List.mem_append, List.mem_reverse]
      constructor
      · rintro (h | h | h)
        · exact Or.inl (Or.inr h)
        · exact Or.inl (Or.inl h)
        · exact Or.inr h
      · rintro ((h | h) | h)
        · exact Or.inr (Or.inl h)
        · exact Or.inl h
        · exact Or.inr (Or.inr h)

theorem threads_write {cfg : Config} {mem : Mem} (ha : cfg.doargs = false) (hl : cfg.dolocals = false) {d : Nat} (hd : d ≤ 10000) {early : Bool} {z : Nat} :
    ∀ (l : List ThreadInfo) (a : Nat) (T S : List Nat), ThreadsAt cfg mem a l z → (∀ x ∈ l.tail.map (·.addr), x ∉ T) → (l.tail.map (·.addr)).Nodup →
      (l ≠ [] ∨ z = 0) → 0 ∉ T →
      ((early = false ∧ z = 0 ∧ T.length + l.length ≤ 128) ∨ (early = true ∧ (z ∈ T ∨ z ∈ l.tail.map (·.addr)) ∧ T.length + l.length ≤ 129) ∨ (early = true ∧ T.length + l.length = 129)) →
      (threadFrames l).Nodup → (∀ x ∈ threadFrames l, x ∉ S) →
      Writes cfg mem d S (fun n => threadLoop cfg mem n n T a) (threadsText (d + 1) early l) (seenAfter l S)
  | [], a, T, S, h, _, _, hz, _, _, _, _ => by
      intro st hd1 hS ht
      have hz' : z = 0 := by rcases hz with h | h; exact absurd rfl h; exact h
      cases h
      refine ⟨1, st, ?_, by simp [threadsText], rfl, hS, ht⟩
      show threadLoop cfg mem 1 1 T z st = _
      simp [threadLoop, hz']
  | th :: l, a, T, S, h, hT, hnd, _, hT0, hend, hnf, hfs => by
      intro st hd1 hS ht
      obtain ⟨rfl, next, hth, hrest⟩ := h
      have hfr : threadFrames (th :: l) = th.frames.map (·.addr) ++ threadFrames l := by simp [threadFrames]
      rw [hfr] at hnf hfs
      rw [List.nodup_append] at hnf
      obtain ⟨N1, st1, h1, h2⟩ := thread_writes ha hl hd hth hnf.1 (fun x hx => hfs x (List.mem_append_left _ hx)) st hd1 hS ht
      have h1' : printThread cfg mem N1 th.addr st = some (.ok (st1, next)) := h1
      simp only [List.tail_cons] at hT hnd hend
      cases l with
      | nil =>
          have hz : next = z := hrest
          subst hz
          rcases hend with ⟨he, hz0, hlen⟩ | ⟨he, hz, hlen⟩ | ⟨he, hlen⟩
          · refine ⟨N1 + 2, st1.put "\n".toList, ?_, ?_, h2.depth, h2.visited, h2.types⟩
            · show threadLoop cfg mem (N1 + 2) (N1 + 2) T th.addr st = _
              unfold threadLoop
              rw [if_neg hth.notNull, printThread_mono (by omega) h1']
              dsimp only
              rw [hz0, if_neg hT0, if_neg (by simp only [List.length_cons, List.length_nil] at hlen ⊢; omega)]
              simp [threadLoop]
            · show st1.out ++ _ = _
              rw [h2.out, he]
              simp [threadsText, List.append_assoc]
          · have hz' : next ∈ T := by simpa using hz
            refine ⟨N1 + 1, st1, ?_, ?_, h2.depth, h2.visited, h2.types⟩
            · show threadLoop cfg mem (N1 + 1) (N1 + 1) T th.addr st = _
              unfold threadLoop
              rw [if_neg hth.notNull, printThread_mono (by omega) h1']
              dsimp only
              rw [if_pos hz']
            · rw [h2.out, he]
              simp [threadsText]
          · refine ⟨N1 + 1, st1, ?_, ?_, h2.depth, h2.visited, h2.types⟩
            · show threadLoop cfg mem (N1 + 1) (N1 + 1) T th.addr st = _
              unfold threadLoop
              rw [if_neg hth.notNull, printThread_mono (by omega) h1']
              dsimp only
              rw [if_pos (show 128 < (next :: T).length by simp only [List.length_cons, List.length_nil] at hlen ⊢; omega)]
              simp
            · rw [h2.out, he]
              simp [threadsText]
      | cons th2 l2 =>
          have hnext : next = th2.addr := hrest.1
          have hth2 : th2.addr ≠ 0 := by
            obtain ⟨_, _, hx, _⟩ := hrest
            exact hx.notNull
          have hnT : next ∉ T := by rw [hnext]; exact hT _ (by simp)
          simp only [List.map_cons, List.nodup_cons] at hnd
          obtain ⟨N2, st2, h3, h4⟩ := threads_write ha hl hd (early := early) (z := z) (th2 :: l2) next (next :: T) ((th.frames.map (·.addr)).reverse ++ S) hrest
            (fun x hx => by
              simp only [List.tail_cons] at hx
              intro hm
              rcases List.mem_cons.1 hm with rfl | hm
              · rw [hnext] at hx; exact hnd.1 hx
              · exact hT x (by simp only [List.map_cons]; exact List.mem_cons_of_mem _ hx) hm)
            (by simpa using hnd.2) (Or.inl (by simp)) (by
              intro hm
              rcases List.mem_cons.1 hm with h0 | hm
              · rw [hnext] at h0; exact hth2 h0.symm
              · exact hT0 hm)
            (by
              simp only [List.length_cons, List.tail_cons] at hend ⊢
              rcases hend with ⟨he, hz0, hlen⟩ | ⟨he, hz, hlen⟩ | ⟨he, hlen⟩
              · exact Or.inl ⟨he, hz0, by omega⟩
              · refine Or.inr (Or.inl ⟨he, ?_, by omega⟩)
                rcases hz with hz | hz
                · exact Or.inl (List.mem_cons_of_mem _ hz)
                · simp only [List.map_cons] at hz
                  rcases List.mem_cons.1 hz with hz | hz
                  · exact Or.inl (by rw [hnext, hz]; exact List.mem_cons_self)
                  · exact Or.inr hz
              · exact Or.inr (Or.inr ⟨he, by omega⟩))
            hnf.2.1 (fun x hx hm => by
              rcases List.mem_append.1 hm with hm | hm
              · exact hnf.2.2 x (List.mem_reverse.1 hm) x hx rfl
              · exact hfs x (List.mem_append_right _ hx) hm)
            (st1.put "\n".toList) (by show st1.depth = _; rw [h2.depth]; exact hd1) h2.visited h2.types
          refine ⟨max N1 N2 + 1, st2, ?_, ?_, ?_, h4.visited, h4.types⟩
          · show threadLoop cfg mem (max N1 N2 + 1) (max N1 N2 + 1) T th.addr st = _
            unfold threadLoop
            rw [if_neg hth.notNull, printThread_mono (by omega) h1']
            dsimp only
            rw [if_neg hnT, if_neg (by
              simp only [List.length_cons] at hend ⊢
              rcases hend with ⟨_, _, hlen⟩ | ⟨_, _, hlen⟩ | ⟨_, hlen⟩ <;> omega)]
            exact threadLoop_mono (by omega) _ _ _ _ _ _ (by omega) h3
          · rw [h4.out]
            show st1.out ++ _ ++ _ = _
            rw [h2.out]
            simp [threadsText, List.append_assoc]
          · rw [h4.depth]; show st1.depth = _; exact h2.depth

/-! ### Interpreters -/

theorem threadsOf_head {cfg : Config} {mem : Mem} {head : Nat} {l : List ThreadInfo} {early : Bool} (h : ThreadsOf cfg mem head l early) : l = [] → head = 0 := by
  rintro rfl
  obtain ⟨z, hz, hend⟩ := h.chain
  rcases hend with ⟨_, hz0, _⟩ | ⟨_, hm, _⟩ | ⟨_, hm⟩
  · exact (show head = z from hz).trans hz0
  · simp at hm
  · simp at hm

theorem interpFields_at {mem : Mem} {a x y z : Nat} (h : PtrsAt mem a [x, y, z]) : interpFields mem a = .ok (x, y, z) := by
  have h' : readPtrs mem a 3 = .ok [x, y, z] := readPtrs_at h
  unfold interpFields
  rw [h']
  rfl

theorem interp_write {cfg : Config} {mem : Mem} (ha : cfg.doargs = false) (hl : cfg.dolocals = false) {x : InterpInfo} {next : Nat} {S : List Nat} (h : InterpAt cfg mem x next)
    (hnf : (interpFrames x).Nodup) (hfs : ∀ f ∈ interpFrames x, f ∉ S) :
    WritesNext cfg mem 0 S (fun n => printInterp cfg mem n x.addr false) (interpText x) (seenAfter x.threads S) next := by
  intro st hd1 hS ht
  obtain ⟨head, modules, hp, hth⟩ := h.head
  generalize hst : st.put ("---- interpreter @".toList ++ hex x.addr ++ " -----\n".toList) = st0
  have hw : ∃ N st', threadLoop cfg mem N N [head] head st0 = some (.ok st') ∧ Wrote cfg mem st0 (threadsText 1 x.early x.threads) (seenAfter x.threads S) st' := by
    by_cases he : x.threads = []
    · refine ⟨1, st0, ?_, ?_⟩
      · rw [threadsOf_head hth he]; simp [threadLoop]
      · rw [he]
        exact ⟨by simp [threadsText], rfl, by rw [← hst]; exact hS, by rw [← hst]; exact ht⟩
    · obtain ⟨z, hz, hend⟩ := hth.chain
      obtain ⟨th, l, hthl⟩ : ∃ th l, x.threads = th :: l := by
        cases hx : x.threads with
        | nil => exact absurd hx he
        | cons th l => exact ⟨th, l, rfl⟩
      have hh : head = th.addr ∧ th.addr ≠ 0 := by
        rw [hthl] at hz
        obtain ⟨h1, _, h2, _⟩ := hz
        exact ⟨h1, h2.notNull⟩
      have hdist := hth.distinct
      rw [hthl] at hdist
      simp only [List.map_cons, List.nodup_cons] at hdist
      refine threads_write ha hl (d := 0) (by omega) (early := x.early) (z := z) x.threads head [head] S hz ?_ ?_ (Or.inl he) ?_ ?_ hnf hfs st0 (by rw [← hst]; exact hd1) (by rw [← hst]; exact hS)
        (by rw [← hst]; exact ht)
      · rw [hthl]
        intro y hy hm
        rw [List.mem_singleton.1 hm, hh.1] at hy
        exact hdist.1 (by simpa using hy)
      · rw [hthl]; simpa using hdist.2
      · simp only [List.mem_singleton]
        intro h0
        exact hh.2 (by rw [← hh.1]; exact h0.symm)
      · simp only [List.length_cons, List.length_nil]
        rcases hend with ⟨he, hz0, hlen⟩ | ⟨he, hz, hlen⟩ | ⟨he, hlen⟩
        · exact Or.inl ⟨he, hz0, by omega⟩
        · refine Or.inr (Or.inl ⟨he, ?_, by omega⟩)
          rw [hthl] at hz ⊢
          simp only [List.map_cons] at hz
          rcases List.mem_cons.1 hz with hz | hz
          · exact Or.inl (by rw [hh.1, hz]; simp)
          · exact Or.inr (by simpa using hz)
        · exact Or.inr (Or.inr ⟨he, by omega⟩)
  obtain ⟨N, st', h1, h2⟩ := hw
  refine ⟨N, st', ?_, ?_, ?_, h2.visited, h2.types⟩
  · show printInterp cfg mem N x.addr false st = _
    have hp' : interpFields mem x.addr = .ok (next, head, modules) := interpFields_at hp
    unfold printInterp
    rw [hp']
    dsimp only
    rw [hst, h1]
    simp
  · have e : st0.out = st.out ++ ("---- interpreter @".toList ++ hex x.addr ++ " -----\n".toList) := by rw [← hst]; rfl
    rw [h2.out, e, List.append_assoc]
    rfl
  · rw [h2.depth, ← hst]; rfl

theorem printInterp_mono {cfg : Config} {mem : Mem} {n m a : Nat} {b : Bool} {st : St} {r : Res (St × Nat)} (hle : n ≤ m) (h : printInterp cfg mem n a b st = some r) :
    printInterp cfg mem m a b st = some r := by
  unfold printInterp at h ⊢
  generalize interpFields mem a = x at h ⊢
  cases x with
  | ok f =>
      dsimp only at h ⊢
      cases hp : threadLoop cfg mem n n [f.2.1] f.2.1 (st.put ("---- interpreter @".toList ++ hex a ++ " -----\n".toList)) with
      | none => rw [hp] at h; cases h
      | some x =>
          rw [hp] at h
          rw [threadLoop_mono hle _ _ _ _ _ _ hle hp]
          cases x with
          | ok st1 =>
              dsimp only at h ⊢
              cases b with
              | false => exact h
              | true =>
                  rw [if_pos rfl] at h ⊢
                  exact withNext_print hle h
          | exc => exact h
          | ub => exact h
          | abort => exact h
  | exc => exact h
  | ub => exact h
  | abort => exact h

theorem interpLoop_mono {cfg : Config} {mem : Mem} {b : Bool} {n m : Nat} (hle : n ≤ m) : ∀ (k j a : Nat) (st : St) (r : Res St), k ≤ j → interpLoop cfg mem b n k a st = some r →
    interpLoop cfg mem b m j a st = some r
  | 0, _, _, _, _, _, h => by simp [interpLoop] at h
  | k + 1, 0, _, _, _, hk, _ => by omega
  | k + 1, j + 1, a, st, r, hk, h => by
      unfold interpLoop at h ⊢
      by_cases ha : a = 0
      · rw [if_pos ha] at h ⊢; exact h
      · rw [if_neg ha] at h ⊢
        cases hp : printInterp cfg mem n a b st with
        | none => rw [hp] at h; cases h
        | some x =>
            rw [hp] at h
            rw [printInterp_mono hle hp]
            cases x with
            | ok p => exact interpLoop_mono hle k j _ _ r (by omega) h
            | exc => exact h
            | ub => exact h
            | abort => exact h

theorem interps_write {cfg : Config} {mem : Mem} (ha : cfg.doargs = false) (hl : cfg.dolocals = false) : ∀ (l : List InterpInfo) (a : Nat) (S : List Nat), InterpsAt cfg mem a l →
    (l.flatMap interpFrames).Nodup → (∀ f ∈ l.flatMap interpFrames, f ∉ S) →
    ∃ S', Writes cfg mem 0 S (fun n => interpLoop cfg mem false n n a) (l.flatMap interpText) S'
  | [], a, S, h, _, _ => by
      cases h
      refine ⟨S, fun st hd hS ht => ⟨1, st, ?_, by simp, rfl, hS, ht⟩⟩
      show interpLoop cfg mem false 1 1 0 st = _
      simp [interpLoop]
  | x :: l, a, S, h, hn, hs => by
      obtain ⟨rfl, next, hx, hrest⟩ := h
      rw [List.flatMap_cons] at hn hs
      rw [List.nodup_append] at hn
      have e : threadFrames x.threads = interpFrames x := rfl
      obtain ⟨S', hw⟩ := interps_write ha hl l next (seenAfter x.threads S) hrest hn.2.1 (fun f hf hm => by
        rw [seenAfter_mem, e] at hm
        rcases hm with hm | hm
        · exact hn.2.2 f hm f hf rfl
        · exact hs f (List.mem_append_right _ hf) hm)
      refine ⟨S', fun st hd hS ht => ?_⟩
      obtain ⟨N1, st1, h1, h2⟩ := interp_write ha hl hx hn.1 (fun f hf => hs f (List.mem_append_left _ hf)) st hd hS ht
      obtain ⟨N2, st2, h3, h4⟩ := hw st1 (by rw [h2.depth]; exact hd) h2.visited h2.types
      have h1' : printInterp cfg mem N1 x.addr false st = some (.ok (st1, next)) := h1
      refine ⟨max N1 N2 + 1, st2, ?_, ?_, ?_, h4.visited, h4.types⟩
      · show interpLoop cfg mem false (max N1 N2 + 1) (max N1 N2 + 1) x.addr st = _
        unfold interpLoop
        rw [if_neg hx.notNull, printInterp_mono (by omega) h1']
        exact interpLoop_mono (by omega) _ _ _ _ _ (by omega) h3
      · rw [h4.out, h2.out]
        simp [List.append_assoc]
      · rw [h4.depth, h2.depth]

/-! ### The threads of any interpreter -/

theorem threadLoop_ends {cfg : Config} {mem : Mem} (hmem : ∀ a, W64 ≤ a → mem a = none) {n : Nat} (hn : W64 + 2 ≤ n) : ∀ (k : Nat) (T : List Nat) (a : Nat) (st : St),
    130 ≤ k + T.length → 1 ≤ k → ∃ r, threadLoop cfg mem n k T a st = some r
  | 0, _, _, _, _, h => by omega
  | k + 1, T, a, st, hk, _ => by
      unfold threadLoop
      split
      · exact ⟨_, rfl⟩
      · have hp : ∃ r, printThread cfg mem n a st = some r := by
          unfold printThread
          generalize threadFields cfg mem a = x
          cases x with
          | ok f =>
              dsimp only
              generalize threadTitle cfg mem f.1 = y
              cases y with
              | ok t =>
                  obtain ⟨r, hr, _⟩ := print_ends (cfg := cfg) hmem f.2.1 ((st.put t).put "\n".toList)
                  dsimp only
                  rw [hr n hn]
                  exact withNext_some
              | exc => exact ⟨_, rfl⟩
              | ub => exact ⟨_, rfl⟩
              | abort => exact ⟨_, rfl⟩
          | exc => exact ⟨_, rfl⟩
          | ub => exact ⟨_, rfl⟩
          | abort => exact ⟨_, rfl⟩
        obtain ⟨r, hr⟩ := hp
        rw [hr]
        cases r with
        | ok p =>
            dsimp only
            split
            · exact ⟨_, rfl⟩
            · split
              · exact ⟨_, rfl⟩
              · rename_i hlen
                simp only [List.length_cons] at hlen
                exact threadLoop_ends hmem hn k _ _ _ (by simp only [List.length_cons]; omega) (by omega)
        | exc => exact ⟨_, rfl⟩
        | ub => exact ⟨_, rfl⟩
        | abort => exact ⟨_, rfl⟩

theorem printInterp_ends {cfg : Config} {mem : Mem} (hmem : ∀ a, W64 ≤ a → mem a = none) (a : Nat) (b : Bool) (st : St) :
    ∃ r, ∀ n, W64 + 130 ≤ n → printInterp cfg mem n a b st = some r := by
  have h : ∀ N, W64 + 130 ≤ N → ∃ r, printInterp cfg mem N a b st = some r := by
    intro N hN
    unfold printInterp
    generalize interpFields mem a = x
    cases x with
    | ok f =>
        obtain ⟨r, hr⟩ := threadLoop_ends (cfg := cfg) hmem (n := N) (by omega) N [f.2.1] f.2.1 (st.put ("---- interpreter @".toList ++ hex a ++ " -----\n".toList)) (by omega) (by omega)
        dsimp only
        rw [hr]
        cases r with
        | ok st1 =>
            dsimp only
            cases b with
            | false => exact ⟨_, rfl⟩
            | true =>
                obtain ⟨r, hr, _⟩ := print_ends (cfg := cfg) hmem f.2.2 (st1.put "---- modules:\n".toList)
                rw [if_pos rfl, hr _ (by omega)]
                exact withNext_some
        | exc => exact ⟨_, rfl⟩
        | ub => exact ⟨_, rfl⟩
        | abort => exact ⟨_, rfl⟩
    | exc => exact ⟨_, rfl⟩
    | ub => exact ⟨_, rfl⟩
    | abort => exact ⟨_, rfl⟩
  obtain ⟨r, hr⟩ := h _ (Nat.le_refl _)
  exact ⟨r, fun n hn => printInterp_mono hn hr⟩

/-- An interpreter that is the next one of itself. -/
theorem interpLoop_circle {cfg : Config} {mem : Mem} {p m : Nat} (hp : p ≠ 0) (h : PtrsAt mem p [p, 0, m]) {n : Nat} : ∀ (k : Nat) (st : St), interpLoop cfg mem false n k p st = none
  | 0, _ => rfl
  | k + 1, st => by
      unfold interpLoop
      rw [if_neg hp]
      have hp' : interpFields mem p = .ok (p, 0, m) := interpFields_at h
      have : printInterp cfg mem n p false st = none ∨ ∃ st', printInterp cfg mem n p false st = some (.ok (st', p)) := by
        unfold printInterp
        rw [hp']
        dsimp only
        cases n with
        | zero => exact Or.inl (by simp [threadLoop])
        | succ n => exact Or.inr ⟨_, by simp [threadLoop]; rfl⟩
      rcases this with h1 | ⟨st', h1⟩
      · rw [h1]
      · rw [h1]
        exact interpLoop_circle hp h k st'

end Pstack.Python
