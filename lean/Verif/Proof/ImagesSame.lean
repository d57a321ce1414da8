import Verif.Proof.ImagesCache
namespace Pstack.Images
open Pstack.Spec

/-- What a search does to the state: `r` is its answer. -/
structure SearchStep (s s' : St) (r : Option Image) : Prop where
  made : s.made ≤ s'.made
  ids : ∀ d, s'.ids d = s.ids d
  dwarf : s'.dwarfCache = s.dwarfCache ∧ s'.madeInfo = s.madeInfo
  answer : (∃ d n, (n, r) ∈ s.names d) ∨ New s s' r
  names : ∀ d e, e ∈ s'.names d → e ∈ s.names d ∨ e.2 = r

theorem inPath_searchStep (fs : Files) (s : St) (n : Path) (d resolve : Bool) (paths : List Path) :
    SearchStep s (getImageInPath fs s paths n d resolve).1 (getImageInPath fs s paths n d resolve).2 := by
  unfold getImageInPath
  cases hg : (s.names d).get n with
  | some v => exact ⟨Nat.le_refl _, fun _ => rfl, ⟨rfl, rfl⟩, Or.inl ⟨d, n, Cache.get_mem hg⟩, fun _ _ h => Or.inl h⟩
  | none =>
    simp only
    obtain ⟨t, h⟩ := search_shape fs n d resolve paths.reverse
    obtain ⟨_, h2, h3⟩ := h s
    generalize searchLoop fs n d resolve paths.reverse s = r at h2 h3
    obtain ⟨s', t⟩ := r
    cases t with
    | returned i => exact ⟨h2.made, h2.ids', ⟨h2.dwarf, h2.madeInfo⟩, Or.inr h3, fun d' e he => Or.inl (by rw [← h2.names' d']; exact he)⟩
    | over i =>
      refine ⟨?_, fun d' => by rw [ids_putName]; exact h2.ids' d', ?_, Or.inr ?_, fun d' e he => ?_⟩
      · cases d <;> exact h2.made
      · cases d <;> exact ⟨h2.dwarf, h2.madeInfo⟩
      · intro x hx; have := h3 x hx; cases d <;> exact this
      · rw [names_putName] at he
        split at he
        · next e => 
          subst e
          rcases Cache.mem_put he with e | ⟨he, _⟩
          · exact Or.inr (by rw [e])
          · exact Or.inl (by rw [← h2.names' d]; exact he)
        · exact Or.inl (by rw [← h2.names' d']; exact he)

/-- What a question does to it. -/
structure ReplyStep (s s' : St) (r : Res (Option Image)) : Prop where
  made : s.made ≤ s'.made
  dwarf : s'.dwarfCache = s.dwarfCache ∧ s'.madeInfo = s.madeInfo
  answer : ∀ i, r = .ok (some i) → (∃ d n, (n, some i) ∈ s.names d) ∨ (∃ d b, (b, some i) ∈ s.ids d) ∨ s.made ≤ i.id ∧ i.id < s'.made
  names : ∀ d e i, e ∈ s'.names d → e.2 = some i → e ∈ s.names d ∨ s.made ≤ i.id ∧ i.id < s'.made ∨ (∃ d n, (n, some i) ∈ s.names d)
  ids : ∀ d e, e ∈ s'.ids d → e ∈ s.ids d ∨ (r = .ok e.2 ∧ (s.ids d).get e.1 = none)
  keeps : ∀ d b v, (b, v) ∈ s.ids d → (s.ids d).get b ≠ none → (b, v) ∈ s'.ids d

theorem SearchStep.reply {s s' : St} {r : Option Image} (h : SearchStep s s' r) : ReplyStep s s' (.ok r) where
  made := h.made
  dwarf := h.dwarf
  answer := fun i e => by
    cases e
    rcases h.answer with h | h
    · exact Or.inl h
    · exact Or.inr (Or.inr (h i rfl))
  names := fun d e i he e2 => by
    rcases h.names d e he with h1 | h1
    · exact Or.inl h1
    · rcases h.answer with h2 | h2
      · exact Or.inr (Or.inr (by rw [← e2, h1]; exact h2))
      · exact Or.inr (Or.inl (h2 i (by rw [← h1]; exact e2)))
  ids := fun d e he => Or.inl (by rw [← h.ids d]; exact he)
  keeps := fun d b v hm _ => by rw [h.ids d]; exact hm

theorem get_none_iff {κ α : Type} [DecidableEq κ] {c : Cache κ α} {k : κ} : c.get k = none ↔ ∀ v, (k, v) ∉ c := by
  unfold Cache.get
  rw [Option.map_eq_none_iff, List.find?_eq_none]
  constructor
  · intro h v hm; have := h _ hm; simp at this
  · rintro h ⟨k', v⟩ hm e
    simp only [decide_eq_true_eq] at e
    subst e
    exact h v hm

theorem byId_reply (fs : Files) (o : Options) (s : St) (b : BuildId) (d : Bool) : ReplyStep s (getImageById fs o s b d).1 (getImageById fs o s b d).2 := by
  have triv : ∀ r : Res (Option Image), (∀ i, r ≠ .ok (some i)) → ReplyStep s s r := fun r hr =>
    ⟨Nat.le_refl _, ⟨rfl, rfl⟩, fun i e => absurd e (hr i), fun _ _ _ h _ => Or.inl h, fun _ _ h => Or.inl h, fun _ _ _ h _ => h⟩
  unfold getImageById
  cases b with
  | nil => exact triv _ (by simp)
  | cons b0 rest =>
    simp only
    by_cases hb : o.noBuildIds = true
    · rw [if_pos hb]; exact triv _ (by simp)
    · rw [if_neg hb]
      cases hg : (s.ids d).get (b0 :: rest) with
      | some v => exact ⟨Nat.le_refl _, ⟨rfl, rfl⟩, fun i e => by cases e; exact Or.inr (Or.inl ⟨d, _, Cache.get_mem hg⟩), fun _ _ _ h _ => Or.inl h, fun _ _ h => Or.inl h, fun _ _ _ h _ => h⟩
      | none =>
        simp only
        have hstep : ∃ s' r, (if o.noLocalFiles = true then (s, none) else
            getImageInPath fs s (if d = true then o.debugBuildIdPrefixes else o.exeBuildIdPrefixes) (idPath b0 rest d) d true) = (s', r) ∧ SearchStep s s' r := by
          by_cases hl : o.noLocalFiles = true
          · rw [if_pos hl]
            exact ⟨s, none, rfl, ⟨Nat.le_refl _, fun _ => rfl, ⟨rfl, rfl⟩, Or.inr nofun, fun _ _ h => Or.inl h⟩⟩
          · rw [if_neg hl]
            exact ⟨_, _, rfl, inPath_searchStep fs s _ d true _⟩
        obtain ⟨s', r, e, h⟩ := hstep
        rw [e]
        simp only
        -- an answer that is put in the cache
        have put : ∀ (s'' : St) (v : Option Image), Grows s' s'' → (∀ i, v = some i → v = r ∨ s'.made ≤ i.id ∧ i.id < s''.made) → ReplyStep s (s''.putId d (b0 :: rest) v) (.ok v) := by
          intro s'' v hgr hv
          have hr := h.reply
          have hmade : (s''.putId d (b0 :: rest) v).made = s''.made := by cases d <;> rfl
          refine ⟨?_, ?_, ?_, ?_, ?_, ?_⟩
          · rw [hmade]; exact Nat.le_trans h.made hgr.made
          · have : (s''.putId d (b0 :: rest) v).dwarfCache = s''.dwarfCache ∧ (s''.putId d (b0 :: rest) v).madeInfo = s''.madeInfo := by cases d <;> exact ⟨rfl, rfl⟩
            rw [this.1, this.2, hgr.dwarf, hgr.madeInfo]; exact h.dwarf
          · intro i e
            cases e
            rw [hmade]
            rcases hv i rfl with e | e
            · rcases hr.answer i (by rw [← e]) with h1 | h1 | h1
              · exact Or.inl h1
              · exact Or.inr (Or.inl h1)
              · exact Or.inr (Or.inr ⟨h1.1, Nat.lt_of_lt_of_le h1.2 hgr.made⟩)
            · exact Or.inr (Or.inr ⟨Nat.le_trans h.made e.1, e.2⟩)
          · intro d' e i he e2
            rw [names_putId, hgr.names' d'] at he
            rw [hmade]
            rcases hr.names d' e i he e2 with h1 | h1 | h1
            · exact Or.inl h1
            · exact Or.inr (Or.inl ⟨h1.1, Nat.lt_of_lt_of_le h1.2 hgr.made⟩)
            · exact Or.inr (Or.inr h1)
          · intro d' e he
            rw [ids_putId] at he
            split at he
            · next hd =>
              subst hd
              rcases Cache.mem_put he with e' | ⟨he, _⟩
              · subst e'; exact Or.inr ⟨rfl, hg⟩
              · exact Or.inl (by rw [← h.ids d, ← hgr.ids' d]; exact he)
            · exact Or.inl (by rw [← h.ids d', ← hgr.ids' d']; exact he)
          · intro d' b' v' hm hne
            rw [ids_putId]
            split
            · next hd =>
              subst hd
              unfold Cache.put
              rw [List.mem_cons]
              refine Or.inr (List.mem_filter.2 ⟨by rw [hgr.ids' d, h.ids d]; exact hm, ?_⟩)
              simp only [ne_eq, decide_not, Bool.not_eq_true', decide_eq_false_iff_not]
              intro e; rw [e] at hne; exact hne hg
            · rw [hgr.ids' d', h.ids d']; exact hm
        cases r with
        | some i => exact put s' _ (Grows.refl _) fun _ _ => Or.inl rfl
        | none =>
          simp only
          cases fs.fetch d (b0 :: rest) with
          | none => exact put s' none (Grows.refl _) nofun
          | some pc =>
            obtain ⟨p, c⟩ := pc
            simp only
            by_cases he : fs.isElf c = true
            · rw [if_pos he]
              exact put _ _ (make_grows s' p d) fun i e => by
                simp only [St.make, Option.some.injEq] at e; subst e; exact Or.inr ⟨Nat.le_refl _, Nat.lt_succ_self _⟩
            · rw [if_neg he]
              have hr := h.reply
              exact ⟨hr.made, hr.dwarf, nofun, hr.names, fun d' e he => Or.inl (by rw [← h.ids d']; exact he), hr.keeps⟩

theorem reply_replyStep (fs : Files) (o : Options) (s : St) (q : Ask) : ReplyStep s (reply fs o s q).1 (reply fs o s q).2 := by
  cases q with
  | name n =>
    simp only [reply, findImage]
    by_cases hl : o.noLocalFiles = true
    · rw [if_pos hl]
      exact (⟨Nat.le_refl _, fun _ => rfl, ⟨rfl, rfl⟩, Or.inr nofun, fun _ _ h => Or.inl h⟩ : SearchStep s s none).reply
    · rw [if_neg hl]
      exact (inPath_searchStep fs s n false false o.exePrefixes).reply
  | debugName n => exact (inPath_searchStep fs s n true false o.debugPrefixes).reply
  | id b => exact byId_reply fs o s b false
  | debugId b => exact byId_reply fs o s b true

/-! ### The same image -/

/-- The cache has this image for the build id. -/
def HoldsId (s : St) (d : Bool) (b : BuildId) (i : Image) : Prop := (b, some i) ∈ s.ids d ∧ ∀ v, (b, v) ∈ s.ids d → v = some i

theorem HoldsId.get {s : St} {d : Bool} {b : BuildId} {i : Image} (h : HoldsId s d b i) : (s.ids d).get b = some (some i) := by
  cases hg : (s.ids d).get b with
  | none => exact absurd h.1 (get_none_iff.1 hg _)
  | some v => rw [h.2 v (Cache.get_mem hg)]

theorem holdsId_reply {fs : Files} {o : Options} {s : St} {d : Bool} {b : BuildId} {i : Image} (h : HoldsId s d b i) (q : Ask) : HoldsId (reply fs o s q).1 d b i := by
  have hr := reply_replyStep fs o s q
  refine ⟨hr.keeps d b _ h.1 (by rw [h.get]; nofun), fun v hv => ?_⟩
  rcases hr.ids d _ hv with h1 | ⟨_, h1⟩
  · exact h.2 v h1
  · rw [h.get] at h1; cases h1

theorem holdsId_flush {s : St} {d : Bool} {b : BuildId} {i : Image} (h : HoldsId s d b i) {j : Option Image} (hj : j ≠ some i) : HoldsId (flush s j) d b i := by
  have e : (flush s j).ids d = flushMap (s.ids d) j := by cases d <;> rfl
  unfold HoldsId
  rw [e]
  refine ⟨List.mem_filter.2 ⟨h.1, ?_⟩, fun v hv => h.2 v (List.mem_filter.1 hv).1⟩
  simpa using fun e => hj e.symm

theorem ids_dwarf (s : St) (i : Image) (d : Bool) : (findDwarf s (some i)).1.ids d = s.ids d := by
  unfold findDwarf; simp only; split <;> cases d <;> rfl

theorem names_dwarf (s : St) (i : Image) (d : Bool) : (findDwarf s (some i)).1.names d = s.names d := by
  unfold findDwarf; simp only; split <;> cases d <;> rfl

theorem made_dwarf (s : St) (i : Image) : (findDwarf s (some i)).1.made = s.made := by
  unfold findDwarf; simp only; split <;> rfl

theorem holdsId_after {fs : Files} {o : Options} {d : Bool} {b : BuildId} {i : Image} (h : List Use) (hu : ∀ u ∈ h, u ≠ .flush (some i)) : ∀ s, HoldsId s d b i → HoldsId (h.foldl (useStep fs o) s) d b i := by
  induction h with
  | nil => intro s hs; exact hs
  | cons u h ih =>
    intro s hs
    refine ih (fun u' hu' => hu u' (by simp [hu'])) _ ?_
    cases u with
    | ask q => exact holdsId_reply hs q
    | flush j => exact holdsId_flush hs (fun e => hu (.flush j) (by simp) (by rw [e]))
    | dwarf j => unfold useStep HoldsId; simp only; rw [ids_dwarf]; exact hs

/-- The question by build id. -/
def askId (d : Bool) (b : BuildId) : Ask := if d then .debugId b else .id b

theorem reply_askId (fs : Files) (o : Options) (s : St) (d : Bool) (b : BuildId) : reply fs o s (askId d b) = getImageById fs o s b d := by cases d <;> rfl

theorem holdsId_found {fs : Files} {o : Options} {s : St} {d : Bool} {b : BuildId} {i : Image} (hu : ∀ v v', (b, v) ∈ s.ids d → (b, v') ∈ s.ids d → v = v') (h : (getImageById fs o s b d).2 = .ok (some i)) :
    HoldsId (getImageById fs o s b d).1 d b i := by
  unfold getImageById at h ⊢
  cases b with
  | nil => cases h
  | cons b0 rest =>
    simp only at h ⊢
    by_cases hb : o.noBuildIds = true
    · rw [if_pos hb] at h; cases h
    · rw [if_neg hb] at h ⊢
      cases hg : (s.ids d).get (b0 :: rest) with
      | some v =>
        rw [hg] at h
        simp only at h ⊢
        cases h
        exact ⟨Cache.get_mem hg, fun v hv => hu _ _ hv (Cache.get_mem hg)⟩
      | none =>
        rw [hg] at h
        simp only at h ⊢
        generalize (if o.noLocalFiles = true then (s, none) else
            getImageInPath fs s (if d = true then o.debugBuildIdPrefixes else o.exeBuildIdPrefixes) (idPath b0 rest d) d true) = x at h ⊢
        obtain ⟨s', r⟩ := x
        have put : ∀ s'' : St, HoldsId (s''.putId d (b0 :: rest) (some i)) d (b0 :: rest) i := by
          intro s''
          unfold HoldsId
          rw [ids_putId, if_pos rfl]
          refine ⟨by simp [Cache.put], fun v hv => ?_⟩
          rcases Cache.mem_put hv with e | ⟨_, e⟩
          · cases e; rfl
          · exact absurd rfl e
        cases r with
        | some j => cases h; exact put _
        | none =>
          simp only at h ⊢
          cases hf : fs.fetch d (b0 :: rest) with
          | none => rw [hf] at h; cases h
          | some pc =>
            obtain ⟨p, c⟩ := pc
            rw [hf] at h
            simp only at h ⊢
            by_cases he : fs.isElf c = true
            · rw [if_pos he] at h ⊢
              have e : (s'.make p d).2 = i := by injection h with h; injection h
              rw [e]
              exact put _
            · rw [if_neg he] at h; cases h

/-- Entries are unique. -/
def UniqueIds (s : St) : Prop := ∀ d b v v', (b, v) ∈ s.ids d → (b, v') ∈ s.ids d → v = v'

theorem uniqueIds_reply {fs : Files} {o : Options} {s : St} (h : UniqueIds s) (q : Ask) : UniqueIds (reply fs o s q).1 := by
  intro d b v v' hv hv'
  have hr := reply_replyStep fs o s q
  rcases hr.ids d _ hv with h1 | ⟨e1, g1⟩
  · rcases hr.ids d _ hv' with h2 | ⟨_, g2⟩
    · exact h d b v v' h1 h2
    · exact absurd h1 (get_none_iff.1 g2 _)
  · rcases hr.ids d _ hv' with h2 | ⟨e2, _⟩
    · exact absurd h2 (get_none_iff.1 g1 _)
    · rw [e1] at e2; exact Res.ok.inj e2

theorem uniqueIds_after {fs : Files} {o : Options} (h : List Use) : ∀ s, UniqueIds s → UniqueIds (h.foldl (useStep fs o) s) := by
  induction h with
  | nil => intro s hs; exact hs
  | cons u h ih =>
    intro s hs
    refine ih _ ?_
    cases u with
    | ask q => exact uniqueIds_reply hs q
    | flush j =>
      intro d b v v' hv hv'
      have e : (flush s j).ids d = flushMap (s.ids d) j := by cases d <;> rfl
      unfold useStep at hv hv'
      simp only at hv hv'
      rw [e] at hv hv'
      exact hs d b v v' (List.mem_filter.1 hv).1 (List.mem_filter.1 hv').1
    | dwarf j => intro d b v v' hv hv'; unfold useStep at hv hv'; simp only at hv hv'; rw [ids_dwarf] at hv hv'; exact hs d b v v' hv hv'

/-! ### Images that are gone -/

structure Without (s : St) (i : Image) : Prop where
  names : ∀ d n, (n, some i) ∉ s.names d
  ids : ∀ d b, (b, some i) ∉ s.ids d
  made : i.id < s.made

theorem without_reply {fs : Files} {o : Options} {s : St} {i : Image} (h : Without s i) (q : Ask) : (reply fs o s q).2 ≠ .ok (some i) ∧ Without (reply fs o s q).1 i := by
  have hr := reply_replyStep fs o s q
  have hne : (reply fs o s q).2 ≠ .ok (some i) := by
    intro e
    rcases hr.answer i e with ⟨d, n, h1⟩ | ⟨d, b, h1⟩ | h1
    · exact h.names d n h1
    · exact h.ids d b h1
    · have := h.made; omega
  refine ⟨hne, ⟨fun d n hm => ?_, fun d b hm => ?_, Nat.lt_of_lt_of_le h.made hr.made⟩⟩
  · rcases hr.names d _ i hm rfl with h1 | h1 | ⟨d, n, h1⟩
    · exact h.names d n h1
    · have := h.made; omega
    · exact h.names d n h1
  · rcases hr.ids d _ hm with h1 | ⟨h1, _⟩
    · exact h.ids d b h1
    · exact hne h1

theorem without_flush {s : St} {i : Image} (h : i.id < s.made) : Without (flush s (some i)) i := by
  have e : ∀ d, (flush s (some i)).ids d = flushMap (s.ids d) (some i) := by intro d; cases d <;> rfl
  have e' : ∀ d, (flush s (some i)).names d = flushMap (s.names d) (some i) := by intro d; cases d <;> rfl
  refine ⟨fun d n hm => ?_, fun d b hm => ?_, h⟩
  · rw [e'] at hm; have := (List.mem_filter.1 hm).2; simp at this
  · rw [e] at hm; have := (List.mem_filter.1 hm).2; simp at this

theorem without_use {fs : Files} {o : Options} {s : St} {i : Image} (h : Without s i) (u : Use) : Without (useStep fs o s u) i := by
  cases u with
  | ask q => exact (without_reply h q).2
  | flush j =>
    refine ⟨fun d n hm => h.names d n ?_, fun d b hm => h.ids d b ?_, h.made⟩ <;> cases d <;> exact (List.mem_filter.1 hm).1
  | dwarf j => exact ⟨fun d n hm => h.names d n (by rw [← names_dwarf s j d]; exact hm), fun d b hm => h.ids d b (by rw [← ids_dwarf s j d]; exact hm), by unfold useStep; simp only; rw [made_dwarf]; exact h.made⟩

theorem without_after {fs : Files} {o : Options} {i : Image} (h : List Use) : ∀ s, Without s i → Without (h.foldl (useStep fs o) s) i := by
  induction h with
  | nil => intro s hs; exact hs
  | cons u h ih => intro s hs; exact ih _ (without_use hs u)

theorem made_mono {fs : Files} {o : Options} (s : St) (u : Use) : s.made ≤ (useStep fs o s u).made := by
  cases u with
  | ask q => exact (reply_replyStep fs o s q).made
  | flush j => exact Nat.le_refl _
  | dwarf j => unfold useStep; simp only; rw [made_dwarf]; exact Nat.le_refl _

/-- All images that are known have been made. -/
def Known' (s : St) : Prop := (∀ d n i, (n, some i) ∈ s.names d → i.id < s.made) ∧ ∀ d b i, (b, some i) ∈ s.ids d → i.id < s.made

theorem known_reply {fs : Files} {o : Options} {s : St} (h : Known' s) (q : Ask) : Known' (reply fs o s q).1 ∧ ∀ i, (reply fs o s q).2 = .ok (some i) → i.id < (reply fs o s q).1.made := by
  have hr := reply_replyStep fs o s q
  have ha : ∀ i, (reply fs o s q).2 = .ok (some i) → i.id < (reply fs o s q).1.made := by
    intro i e
    rcases hr.answer i e with ⟨d, n, h1⟩ | ⟨d, b, h1⟩ | h1
    · exact Nat.lt_of_lt_of_le (h.1 d n i h1) hr.made
    · exact Nat.lt_of_lt_of_le (h.2 d b i h1) hr.made
    · exact h1.2
  refine ⟨⟨fun d n i hm => ?_, fun d b i hm => ?_⟩, ha⟩
  · rcases hr.names d _ i hm rfl with h1 | h1 | ⟨d, n, h1⟩
    · exact Nat.lt_of_lt_of_le (h.1 d n i h1) hr.made
    · exact h1.2
    · exact Nat.lt_of_lt_of_le (h.1 d n i h1) hr.made
  · rcases hr.ids d _ hm with h1 | ⟨h1, _⟩
    · exact Nat.lt_of_lt_of_le (h.2 d b i h1) hr.made
    · exact ha i h1

theorem known_after {fs : Files} {o : Options} (h : List Use) : ∀ s, Known' s → Known' (h.foldl (useStep fs o) s) := by
  induction h with
  | nil => intro s hs; exact hs
  | cons u h ih =>
    intro s hs
    refine ih _ ?_
    cases u with
    | ask q => exact (known_reply hs q).1
    | flush j => refine ⟨fun d n i hm => hs.1 d n i ?_, fun d b i hm => hs.2 d b i ?_⟩ <;> cases d <;> exact (List.mem_filter.1 hm).1
    | dwarf j =>
      unfold useStep Known'
      simp only
      rw [made_dwarf]
      exact ⟨fun d n i hm => hs.1 d n i (by rw [← names_dwarf s j d]; exact hm), fun d b i hm => hs.2 d b i (by rw [← ids_dwarf s j d]; exact hm)⟩

/-! ### Debug information -/

structure InfoInv (s : St) : Prop where
  made : ∀ k d, (k, d) ∈ s.dwarfCache → d < s.madeInfo
  apart : ∀ k d k' d', (k, d) ∈ s.dwarfCache → (k', d') ∈ s.dwarfCache → (k = k' ↔ d = d')

theorem infoInv_dwarf {s : St} (h : InfoInv s) (i : Image) : InfoInv (findDwarf s (some i)).1 ∧ ∃ d, (findDwarf s (some i)).2 = .ok d ∧ (i.id, d) ∈ (findDwarf s (some i)).1.dwarfCache := by
  unfold findDwarf
  cases hg : s.dwarfCache.get i.id with
  | some d => simp only [hg]; exact ⟨h, d, rfl, Cache.get_mem hg⟩
  | none =>
    simp only [hg]
    refine ⟨⟨fun k d hm => ?_, fun k d k' d' hm hm' => ?_⟩, _, rfl, by simp [Cache.put]⟩
    · rcases Cache.mem_put hm with e | ⟨hm, _⟩
      · cases e; exact Nat.lt_succ_self _
      · exact Nat.lt_succ_of_lt (h.made k d hm)
    · rcases Cache.mem_put hm with e | ⟨hm, e⟩
      · cases e
        rcases Cache.mem_put hm' with e' | ⟨hm', e'⟩
        · cases e'; exact ⟨fun _ => rfl, fun _ => rfl⟩
        · have := h.made k' d' hm'
          exact ⟨fun x => absurd x.symm e', fun x => by omega⟩
      · rcases Cache.mem_put hm' with e' | ⟨hm', _⟩
        · cases e'
          have := h.made k d hm
          exact ⟨fun x => absurd x e, fun x => by omega⟩
        · exact h.apart k d k' d' hm hm'

theorem infoInv_use {fs : Files} {o : Options} {s : St} (h : InfoInv s) (u : Use) : InfoInv (useStep fs o s u) := by
  cases u with
  | ask q =>
    have e := (reply_replyStep fs o s q).dwarf
    unfold useStep
    simp only
    exact ⟨fun k d hm => by rw [e.2]; exact h.made k d (by rw [← e.1]; exact hm), fun k d k' d' hm hm' => h.apart k d k' d' (by rw [← e.1]; exact hm) (by rw [← e.1]; exact hm')⟩
  | flush j =>
    have sub : ∀ e, e ∈ (flush s j).dwarfCache → e ∈ s.dwarfCache := by
      intro e he
      cases j with
      | none => exact he
      | some j => exact (List.mem_filter.1 he).1
    exact ⟨fun k d hm => h.made k d (sub _ hm), fun k d k' d' hm hm' => h.apart k d k' d' (sub _ hm) (sub _ hm')⟩
  | dwarf i => exact (infoInv_dwarf h i).1

theorem infoInv_after {fs : Files} {o : Options} (h : List Use) : ∀ s, InfoInv s → InfoInv (h.foldl (useStep fs o) s) := by
  induction h with
  | nil => intro s hs; exact hs
  | cons u h ih => intro s hs; exact ih _ (infoInv_use hs u)

theorem info_kept {fs : Files} {o : Options} {s : St} {k d : Nat} (h : (k, d) ∈ s.dwarfCache) (u : Use) (hu : ∀ i, u = .flush (some i) → i.id ≠ k) : (k, d) ∈ (useStep fs o s u).dwarfCache := by
  cases u with
  | ask q => unfold useStep; simp only; rw [(reply_replyStep fs o s q).dwarf.1]; exact h
  | flush j =>
    cases j with
    | none => exact h
    | some j => exact List.mem_filter.2 ⟨h, by simpa using fun e => hu j rfl e.symm⟩
  | dwarf i =>
    unfold useStep findDwarf
    cases hg : s.dwarfCache.get i.id with
    | some d => simp only [hg]; exact h
    | none =>
      simp only [hg, Cache.put, List.mem_cons]
      refine Or.inr (List.mem_filter.2 ⟨h, ?_⟩)
      simp only [ne_eq, decide_not, Bool.not_eq_true', decide_eq_false_iff_not]
      intro e; rw [← e] at hg; exact get_none_iff.1 hg _ h

theorem info_kept_after {fs : Files} {o : Options} {k d : Nat} (l : List Use) (hu : ∀ u ∈ l, ∀ i, u = .flush (some i) → i.id ≠ k) : ∀ s, (k, d) ∈ s.dwarfCache → (k, d) ∈ (l.foldl (useStep fs o) s).dwarfCache := by
  induction l with
  | nil => intro s hs; exact hs
  | cons u l ih => intro s hs; exact ih (fun u' hu' => hu u' (by simp [hu'])) _ (info_kept hs u (hu u (by simp)))

/-! ### Links -/

theorem follow_relative {dir base t : Path} (hd : dir = [] ∨ dir.getLast? = some '/') (hb : '/' ∉ base) (ht : t.head? ≠ some '/') : follow (dir ++ base) t = dir ++ t := by
  unfold follow
  rw [if_neg ht]
  congr 1
  rw [List.reverse_append, dropWhile_all (p := fun c => decide (c ≠ '/')) (fun c hc => by
    simp only [ne_eq, decide_not, Bool.not_eq_true', decide_eq_false_iff_not]
    intro e; subst e; exact hb (List.mem_reverse.1 hc)), List.reverse_reverse]
  intro c hc
  rcases hd with rfl | hd
  · cases hc
  · rw [List.head?_reverse, hd] at hc
    cases hc
    rfl

theorem linkResolve_step {fs : Files} {a t : Path} (h : Link1 fs a t) (orig : Path) (n : Nat) : linkResolve fs orig (n + 1) a = linkResolve fs orig n t := by
  cases h with
  | absolute _ _ h1 h2 h3 =>
    rw [linkResolve, h1]
    simp only
    rw [List.take_of_length_le (by omega), follow, if_pos h2]
  | relative dir base t h1 h2 h3 h4 h5 =>
    rw [linkResolve, h1]
    simp only
    rw [List.take_of_length_le (by omega), follow_relative h4 h5 h2]

theorem linkResolve_links {fs : Files} {a b : Path} (h : Links fs a b) (orig : Path) : ∃ k, ∀ n, linkResolve fs orig (n + k) a = linkResolve fs orig n b := by
  induction h with
  | here a => exact ⟨0, fun n => rfl⟩
  | step a t b h1 _ ih =>
    obtain ⟨k, ih⟩ := ih
    exact ⟨k + 1, fun n => by rw [← Nat.add_assoc, linkResolve_step h1]; exact ih n⟩

theorem linkResolve_mono {fs : Files} {orig : Path} (n : Nat) : ∀ {a x : Path}, linkResolve fs orig n a = some x → ∀ m, linkResolve fs orig (n + m) a = some x := by
  induction n with
  | zero => intro a x h; cases h
  | succ n ih =>
    intro a x h m
    rw [Nat.succ_add, linkResolve]
    rw [linkResolve] at h
    cases hr : fs.readlink a with
    | einval => rw [hr] at h; exact h
    | error => rw [hr] at h; exact h
    | target t => rw [hr] at h; exact ih h m

theorem linkResolve_cycle {fs : Files} {a t : Path} (h1 : Link1 fs a t) (h2 : Links fs t a) (orig : Path) (n : Nat) : linkResolve fs orig n a = none := by
  obtain ⟨k, hk⟩ := linkResolve_links h2 orig
  have per : ∀ n, linkResolve fs orig (n + (k + 1)) a = linkResolve fs orig n a := fun n => by
    rw [← Nat.add_assoc, linkResolve_step h1, hk]
  have all : ∀ j, linkResolve fs orig (j * (k + 1)) a = none := by
    intro j
    induction j with
    | zero => simp [linkResolve]
    | succ j ih => rw [Nat.succ_mul, per, ih]
  cases hx : linkResolve fs orig n a with
  | none => rfl
  | some x =>
    have h := linkResolve_mono n hx (n * k)
    have e : n + n * k = n * (k + 1) := by rw [Nat.mul_add, Nat.mul_one, Nat.add_comm]
    rw [e, all n] at h
    cases h

end Pstack.Images
