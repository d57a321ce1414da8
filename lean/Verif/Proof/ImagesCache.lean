import Verif.Proof.Images
namespace Pstack.Images
open Pstack.Spec

/-! ### What is found does not depend on the state -/

def erase (i : Option Image) : Option Path := i.map (·.file)

/-- A state with the same caches, in which there may have been more images. -/
structure Grows (s s' : St) : Prop where
  names : s'.imageByName = s.imageByName
  debugNames : s'.debugImageByName = s.debugImageByName
  ids : s'.imageByID = s.imageByID
  debugIds : s'.debugImageByID = s.debugImageByID
  dwarf : s'.dwarfCache = s.dwarfCache
  made : s.made ≤ s'.made
  madeInfo : s'.madeInfo = s.madeInfo

theorem Grows.refl (s : St) : Grows s s := ⟨rfl, rfl, rfl, rfl, rfl, Nat.le_refl _, rfl⟩

theorem Grows.trans {a b c : St} (h : Grows a b) (h' : Grows b c) : Grows a c :=
  ⟨h'.names.trans h.names, h'.debugNames.trans h.debugNames, h'.ids.trans h.ids, h'.debugIds.trans h.debugIds, h'.dwarf.trans h.dwarf, Nat.le_trans h.made h'.made, h'.madeInfo.trans h.madeInfo⟩

inductive TryF
  | found (f : Path)
  | script (f : Path)
  | next
  deriving DecidableEq

def Try.shape : Try → TryF
  | .found i => .found i.file
  | .script i => .script i.file
  | .next => .next

def Try.image : Try → Option Image
  | .found i | .script i => some i
  | .next => none

/-- An image that is new. -/
def New (s s' : St) (i : Option Image) : Prop := ∀ x, i = some x → s.made ≤ x.id ∧ x.id < s'.made

theorem tryPath_shape (fs : Files) (p : Path) (d : Bool) : ∃ t, ∀ s, (tryPath fs s p d).2.shape = t ∧ Grows s (tryPath fs s p d).1 ∧ New s (tryPath fs s p d).1 (tryPath fs s p d).2.image := by
  cases hc : fs.content p with
  | none => exact ⟨.next, fun s => by simp only [tryPath, openFile, hc]; exact ⟨rfl, ⟨rfl, rfl, rfl, rfl, rfl, Nat.le_refl _, rfl⟩, nofun⟩⟩
  | some c =>
    by_cases hs : (!d && isScript c) = true
    · cases hi : fs.content (interpreter c) with
      | none => exact ⟨.next, fun s => by simp only [tryPath, openImage, openFile, hc, hi, if_pos hs]; exact ⟨rfl, ⟨rfl, rfl, rfl, rfl, rfl, Nat.le_refl _, rfl⟩, nofun⟩⟩
      | some ci =>
        by_cases he : fs.isElf ci = true
        · exact ⟨.script (interpreter c), fun s => by
            simp only [tryPath, openImage, openFile, hc, hi, if_pos hs, if_pos he, St.make]
            exact ⟨rfl, ⟨rfl, rfl, rfl, rfl, rfl, Nat.le_succ _, rfl⟩, fun x hx => by cases hx; exact ⟨Nat.le_refl _, Nat.lt_succ_self _⟩⟩⟩
        · exact ⟨.next, fun s => by simp only [tryPath, openImage, openFile, hc, hi, if_pos hs, if_neg he]; exact ⟨rfl, ⟨rfl, rfl, rfl, rfl, rfl, Nat.le_refl _, rfl⟩, nofun⟩⟩
    · by_cases he : fs.isElf c = true
      · exact ⟨.found p, fun s => by
          simp only [tryPath, openFile, hc, if_neg hs, if_pos he, St.make]
          exact ⟨rfl, ⟨rfl, rfl, rfl, rfl, rfl, Nat.le_succ _, rfl⟩, fun x hx => by cases hx; exact ⟨Nat.le_refl _, Nat.lt_succ_self _⟩⟩⟩
      · exact ⟨.next, fun s => by simp only [tryPath, openFile, hc, if_neg hs, if_neg he]; exact ⟨rfl, ⟨rfl, rfl, rfl, rfl, rfl, Nat.le_refl _, rfl⟩, nofun⟩⟩

inductive SearchF
  | returned (f : Option Path)
  | over (f : Option Path)

def Search.shape : Search → SearchF
  | .returned i => .returned (erase i)
  | .over i => .over (erase i)

theorem search_shape (fs : Files) (name : Path) (d resolve : Bool) (dirs : List Path) :
    ∃ t, ∀ s, (searchLoop fs name d resolve dirs s).2.shape = t ∧ Grows s (searchLoop fs name d resolve dirs s).1 ∧ New s (searchLoop fs name d resolve dirs s).1 (searchLoop fs name d resolve dirs s).2.image := by
  induction dirs with
  | nil => exact ⟨.over none, fun s => ⟨rfl, Grows.refl s, nofun⟩⟩
  | cons x dirs ih =>
    obtain ⟨t', ih⟩ := ih
    cases ht : target fs resolve (join x name) with
    | none => exact ⟨.returned none, fun s => by simp only [searchLoop, ht]; exact ⟨rfl, Grows.refl s, nofun⟩⟩
    | some p =>
      obtain ⟨t, h⟩ := tryPath_shape fs p d
      cases t with
      | found f =>
        refine ⟨.returned (some f), fun s => ?_⟩
        obtain ⟨h1, h2, h3⟩ := h s
        simp only [searchLoop, ht]
        generalize tryPath fs s p d = r at h1 h2 h3
        obtain ⟨s', t⟩ := r
        cases t with
        | found i => cases h1; exact ⟨rfl, h2, h3⟩
        | script i => cases h1
        | next => cases h1
      | script f =>
        refine ⟨.over (some f), fun s => ?_⟩
        obtain ⟨h1, h2, h3⟩ := h s
        simp only [searchLoop, ht]
        generalize tryPath fs s p d = r at h1 h2 h3
        obtain ⟨s', t⟩ := r
        cases t with
        | found i => cases h1
        | script i => cases h1; exact ⟨rfl, h2, h3⟩
        | next => cases h1
      | next =>
        refine ⟨t', fun s => ?_⟩
        obtain ⟨h1, h2, h3⟩ := h s
        simp only [searchLoop, ht]
        generalize tryPath fs s p d = r at h1 h2 h3
        obtain ⟨s', t⟩ := r
        cases t with
        | found i => cases h1
        | script i => cases h1
        | next =>
          obtain ⟨h4, h5, h6⟩ := ih s'
          exact ⟨h4, h2.trans h5, fun x hx => ⟨Nat.le_trans h2.made (h6 x hx).1, (h6 x hx).2⟩⟩

/-- What a search without cache finds. -/
def searched (fs : Files) (name : Path) (d resolve : Bool) (paths : List Path) : Option Path := erase (searchLoop fs name d resolve paths.reverse {}).2.image

theorem shape_image {t : Search} {u : Search} (h : t.shape = u.shape) : erase t.image = erase u.image := by
  cases t <;> cases u <;> simp only [Search.shape, SearchF.returned.injEq, SearchF.over.injEq, reduceCtorEq] at h <;> exact h

theorem searchLoop_file (fs : Files) (name : Path) (d resolve : Bool) (paths : List Path) (s : St) :
    erase (searchLoop fs name d resolve paths.reverse s).2.image = searched fs name d resolve paths := by
  obtain ⟨t, h⟩ := search_shape fs name d resolve paths.reverse
  exact shape_image ((h s).1.trans (h {}).1.symm)

/-! ### Caches -/

theorem Cache.get_mem {κ α : Type} [DecidableEq κ] {c : Cache κ α} {k : κ} {v : α} (h : c.get k = some v) : (k, v) ∈ c := by
  unfold Cache.get at h
  cases hf : c.find? (·.1 = k) with
  | none => rw [hf] at h; cases h
  | some e =>
    rw [hf] at h
    cases h
    have h1 := List.find?_some hf
    have h2 := List.mem_of_find?_eq_some hf
    simp only [decide_eq_true_eq] at h1
    subst h1
    exact h2

theorem Cache.mem_put {κ α : Type} [DecidableEq κ] {c : Cache κ α} {k : κ} {v : α} {e : κ × α} (h : e ∈ c.put k v) : e = (k, v) ∨ (e ∈ c ∧ e.1 ≠ k) := by
  unfold Cache.put at h
  simp only [List.mem_cons, List.mem_filter, decide_eq_true_eq, ne_eq] at h
  exact h

theorem Cache.get_put {κ α : Type} [DecidableEq κ] (c : Cache κ α) (k : κ) (v : α) : (c.put k v).get k = some v := by simp [Cache.get, Cache.put, List.find?]

/-- The names under which build ids are looked up are relative. -/
theorem idPath_relative (b0 : Byte) (rest : BuildId) (d : Bool) : (idPath b0 rest d).head? ≠ some '/' := by
  have hx : ∀ n, n < 16 → n.digitChar ≠ '/' := by decide
  have h0 : b0.toNat / 16 < 16 := by have := b0.isLt; omega
  unfold idPath join
  have hn : (rest.flatMap hexByte ++ (if d then ".debug".toList else [])).head? ≠ some '/' := by
    cases rest with
    | nil => cases d <;> decide
    | cons r rest =>
      have h1 : r.toNat / 16 < 16 := by have := r.isLt; omega
      simp only [List.flatMap_cons, hexByte, List.cons_append, List.head?_cons, ne_eq, Option.some.injEq]
      exact hx _ h1
  rw [if_neg hn]
  split <;> simp only [hexByte, List.cons_append, List.head?_cons, ne_eq, Option.some.injEq] <;> exact hx _ h0

/-- What a name in the cache stands for. -/
def nameFile (fs : Files) (o : Options) (n : Path) (d : Bool) : Option Path :=
  if n.head? = some '/' then searched fs n d false (if d then o.debugPrefixes else o.exePrefixes)
  else searched fs n d true (if d then o.debugBuildIdPrefixes else o.exeBuildIdPrefixes)

/-- What a build id stands for. -/
def idFile (fs : Files) (o : Options) (b : BuildId) (d : Bool) : Res (Option Path) :=
  match b with
  | [] => .ok none
  | b0 :: rest =>
      if o.noBuildIds then .ok none
      else match (if o.noLocalFiles then none else searched fs (idPath b0 rest d) d true (if d then o.debugBuildIdPrefixes else o.exeBuildIdPrefixes)) with
        | some f => .ok (some f)
        | none => match fs.fetch d b with
          | none => .ok none
          | some (p, c) => if fs.isElf c then .ok (some p) else .exc

structure CacheInv (fs : Files) (o : Options) (s : St) : Prop where
  names : ∀ d n v, (n, v) ∈ s.names d → erase v = nameFile fs o n d
  ids : ∀ d b v, (b, v) ∈ s.ids d → (.ok (erase v) : Res (Option Path)) = idFile fs o b d

theorem cacheInv_empty (fs : Files) (o : Options) : CacheInv fs o {} := ⟨(fun d n v h => by cases d <;> exact nomatch h), (fun d n v h => by cases d <;> exact nomatch h)⟩

theorem Grows.names' {s s' : St} (h : Grows s s') (d : Bool) : s'.names d = s.names d := by cases d; exact h.names; exact h.debugNames
theorem Grows.ids' {s s' : St} (h : Grows s s') (d : Bool) : s'.ids d = s.ids d := by cases d; exact h.ids; exact h.debugIds

theorem Grows.inv {fs : Files} {o : Options} {s s' : St} (h : Grows s s') (hi : CacheInv fs o s) : CacheInv fs o s' :=
  ⟨fun d n v hm => hi.names d n v (by rw [← h.names' d]; exact hm), fun d n v hm => hi.ids d n v (by rw [← h.ids' d]; exact hm)⟩

theorem names_putName (s : St) (d d' : Bool) (n : Path) (v : Option Image) : (s.putName d n v).names d' = if d = d' then (s.names d).put n v else s.names d' := by
  cases d <;> cases d' <;> rfl
theorem ids_putName (s : St) (d d' : Bool) (n : Path) (v : Option Image) : (s.putName d n v).ids d' = s.ids d' := by cases d <;> cases d' <;> rfl
theorem names_putId (s : St) (d d' : Bool) (b : BuildId) (v : Option Image) : (s.putId d b v).names d' = s.names d' := by cases d <;> cases d' <;> rfl
theorem ids_putId (s : St) (d d' : Bool) (b : BuildId) (v : Option Image) : (s.putId d b v).ids d' = if d = d' then (s.ids d).put b v else s.ids d' := by
  cases d <;> cases d' <;> rfl

theorem inv_putName {fs : Files} {o : Options} {s : St} (hi : CacheInv fs o s) {d : Bool} {n : Path} {v : Option Image} (h : erase v = nameFile fs o n d) : CacheInv fs o (s.putName d n v) := by
  refine ⟨fun d' n' v' hm => ?_, fun d' b v' hm => hi.ids d' b v' (by rw [ids_putName] at hm; exact hm)⟩
  rw [names_putName] at hm
  split at hm
  · next e =>
    subst e
    rcases Cache.mem_put hm with e | ⟨hm, _⟩
    · cases e; exact h
    · exact hi.names _ _ _ hm
  · exact hi.names _ _ _ hm

theorem inv_putId {fs : Files} {o : Options} {s : St} (hi : CacheInv fs o s) {d : Bool} {b : BuildId} {v : Option Image} (h : (.ok (erase v) : Res (Option Path)) = idFile fs o b d) :
    CacheInv fs o (s.putId d b v) := by
  refine ⟨fun d' n v' hm => hi.names d' n v' (by rw [names_putId] at hm; exact hm), fun d' b' v' hm => ?_⟩
  rw [ids_putId] at hm
  split at hm
  · next e =>
    subst e
    rcases Cache.mem_put hm with e | ⟨hm, _⟩
    · cases e; exact h
    · exact hi.ids _ _ _ hm
  · exact hi.ids _ _ _ hm

/-- One search by name. -/
theorem inPath_step {fs : Files} {o : Options} {s : St} (hi : CacheInv fs o s) {n : Path} {d resolve : Bool} {paths : List Path} (hn : searched fs n d resolve paths = nameFile fs o n d) :
    erase (getImageInPath fs s paths n d resolve).2 = nameFile fs o n d ∧ CacheInv fs o (getImageInPath fs s paths n d resolve).1 := by
  unfold getImageInPath
  cases hg : (s.names d).get n with
  | some v => exact ⟨hi.names _ _ _ (Cache.get_mem hg), hi⟩
  | none =>
    simp only
    have hf := searchLoop_file fs n d resolve paths s
    obtain ⟨t, h⟩ := search_shape fs n d resolve paths.reverse
    obtain ⟨_, h2, _⟩ := h s
    generalize searchLoop fs n d resolve paths.reverse s = r at hf h2
    obtain ⟨s', t⟩ := r
    cases t with
    | returned i => exact ⟨hf.trans hn, h2.inv hi⟩
    | over i => exact ⟨hf.trans hn, inv_putName (h2.inv hi) (hf.trans hn)⟩

theorem make_grows (s : St) (f : Path) (d : Bool) : Grows s (s.make f d).1 := ⟨rfl, rfl, rfl, rfl, rfl, Nat.le_succ _, rfl⟩

theorem byId_step {fs : Files} {o : Options} {s : St} (hi : CacheInv fs o s) (b : BuildId) (d : Bool) :
    fileOf (getImageById fs o s b d).2 = idFile fs o b d ∧ CacheInv fs o (getImageById fs o s b d).1 := by
  unfold getImageById
  cases b with
  | nil => exact ⟨rfl, hi⟩
  | cons b0 rest =>
    simp only
    by_cases hb : o.noBuildIds = true
    · rw [if_pos hb]; exact ⟨by simp only [idFile, if_pos hb]; rfl, hi⟩
    · rw [if_neg hb]
      cases hg : (s.ids d).get (b0 :: rest) with
      | some v => exact ⟨hi.ids _ _ _ (Cache.get_mem hg), hi⟩
      | none =>
        simp only
        have hstep : ∃ s' r, (if o.noLocalFiles = true then (s, none) else
            getImageInPath fs s (if d = true then o.debugBuildIdPrefixes else o.exeBuildIdPrefixes) (idPath b0 rest d) d true) = (s', r) ∧ CacheInv fs o s' ∧
            erase r = (if o.noLocalFiles then none else searched fs (idPath b0 rest d) d true (if d then o.debugBuildIdPrefixes else o.exeBuildIdPrefixes)) := by
          by_cases hl : o.noLocalFiles = true
          · rw [if_pos hl, if_pos hl]; exact ⟨s, none, rfl, hi, rfl⟩
          · rw [if_neg hl, if_neg hl]
            have hn : searched fs (idPath b0 rest d) d true (if d = true then o.debugBuildIdPrefixes else o.exeBuildIdPrefixes) = nameFile fs o (idPath b0 rest d) d := by
              unfold nameFile; rw [if_neg (idPath_relative _ _ _)]
            obtain ⟨h1, h2⟩ := inPath_step hi hn
            exact ⟨_, _, rfl, h2, h1.trans hn.symm⟩
        obtain ⟨s', r, e, hi', hr⟩ := hstep
        rw [e]
        simp only
        have hid : idFile fs o (b0 :: rest) d = match erase r with
            | some f => .ok (some f)
            | none => match fs.fetch d (b0 :: rest) with
              | none => .ok none
              | some (p, c) => if fs.isElf c then .ok (some p) else .exc := by
          simp only [idFile, if_neg hb, ← hr]
        cases r with
        | some i => exact ⟨by rw [hid]; rfl, inv_putId hi' (by rw [hid]; rfl)⟩
        | none =>
          simp only [erase, Option.map_none] at hid
          simp only
          cases hfe : fs.fetch d (b0 :: rest) with
          | none => rw [hfe] at hid; exact ⟨by rw [hid]; rfl, inv_putId hi' (by rw [hid]; rfl)⟩
          | some pc =>
            obtain ⟨p, c⟩ := pc
            rw [hfe] at hid
            simp only at hid ⊢
            by_cases he : fs.isElf c = true
            · rw [if_pos he] at hid ⊢
              exact ⟨by rw [hid]; rfl, inv_putId ((make_grows s' p d).inv hi') (by rw [hid]; rfl)⟩
            · rw [if_neg he] at hid ⊢
              exact ⟨by rw [hid]; rfl, hi'⟩

/-- The file that answers a question. -/
def askFile (fs : Files) (o : Options) : Ask → Res (Option Path)
  | .name n => .ok (if o.noLocalFiles then none else nameFile fs o n false)
  | .debugName n => .ok (nameFile fs o n true)
  | .id b => idFile fs o b false
  | .debugId b => idFile fs o b true

theorem reply_step {fs : Files} {o : Options} {s : St} (hi : CacheInv fs o s) (q : Ask) (hq : q.Absolute) : fileOf (reply fs o s q).2 = askFile fs o q ∧ CacheInv fs o (reply fs o s q).1 := by
  cases q with
  | name n =>
    simp only [reply, findImage, askFile]
    by_cases hl : o.noLocalFiles = true
    · rw [if_pos hl, if_pos hl]; exact ⟨rfl, hi⟩
    · rw [if_neg hl, if_neg hl]
      have hn : searched fs n false false o.exePrefixes = nameFile fs o n false := by unfold nameFile; rw [if_pos (show n.head? = some '/' from hq)]; rfl
      obtain ⟨h1, h2⟩ := inPath_step hi hn
      exact ⟨by rw [← h1]; rfl, h2⟩
  | debugName n =>
    simp only [reply, findDebugImage, askFile]
    have hn : searched fs n true false o.debugPrefixes = nameFile fs o n true := by unfold nameFile; rw [if_pos (show n.head? = some '/' from hq)]; rfl
    obtain ⟨h1, h2⟩ := inPath_step hi hn
    exact ⟨by rw [← h1]; rfl, h2⟩
  | id b => exact byId_step hi b false
  | debugId b => exact byId_step hi b true

theorem inv_flush {fs : Files} {o : Options} {s : St} (hi : CacheInv fs o s) (i : Option Image) : CacheInv fs o (flush s i) := by
  refine ⟨fun d n v hm => hi.names d n v ?_, fun d n v hm => hi.ids d n v ?_⟩ <;> cases d <;> exact (List.mem_filter.1 hm).1

theorem inv_dwarf {fs : Files} {o : Options} {s : St} (hi : CacheInv fs o s) (i : Option Image) : CacheInv fs o (findDwarf s i).1 := by
  unfold findDwarf
  cases i with
  | none => exact hi
  | some i =>
    simp only
    split
    · exact hi
    · exact ⟨fun d n v hm => hi.names d n v (by cases d <;> exact hm), fun d n v hm => hi.ids d n v (by cases d <;> exact hm)⟩

theorem inv_after (fs : Files) (o : Options) (h : List Use) (ha : ∀ u ∈ h, u.Absolute) : ∀ s, CacheInv fs o s → CacheInv fs o (h.foldl (useStep fs o) s) := by
  induction h with
  | nil => intro s hs; exact hs
  | cons u h ih =>
    intro s hs
    refine ih (fun u' hu => ha u' (by simp [hu])) _ ?_
    cases u with
    | ask q => exact (reply_step hs q (show q.Absolute from ha (.ask q) (by simp))).2
    | flush i => exact inv_flush hs i
    | dwarf i => exact inv_dwarf hs _

end Pstack.Images
