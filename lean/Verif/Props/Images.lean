import Verif.Proof.ImagesSame
/-
C70-C73: finding images (context.cc, elf.cc).
-/
namespace Pstack.Props
open Pstack.Images Pstack.Spec

/-! ### C70: where images are looked for -/

theorem join_plain {dir name : Path} (hd : PlainDir dir) (hn : name.head? ≠ some '/') : join dir name = under_dir dir name := by
  unfold join under_dir PlainDir at *
  rw [if_neg hn]
  by_cases h : dir = []
  · subst h; simp
  · rw [if_neg (by simp [h, hd]), if_neg h]

/-- C70: a relative name of a program or library is looked for in the directories that are known, the last that was given first; what is found is the first ELF image (or the interpreter of the first script) there is.
(Partial: see below for absolute names, build ids and long interpreters.) -/
theorem C70_search_partial {fs : Files} (hf : ScriptsFit fs) {o : Options} (hl : o.noLocalFiles = false) {name : Path} (hn : name.head? ≠ some '/') (hp : ∀ d ∈ o.exePrefixes, PlainDir d) :
    Best fs false (o.exePrefixes.reverse.map (under_dir · name)) ((findImage fs o {} name).2.map (·.file)) := by
  unfold findImage
  rw [if_neg (by simp [hl])]
  exact getImageInPath_best hf rfl fun x hx => by simp only [target]; rw [join_plain (hp x hx) hn]; rfl

/-- C70: the same for debug images. -/
theorem C70_debug_search_partial {fs : Files} (hf : ScriptsFit fs) {o : Options} {name : Path} (hn : name.head? ≠ some '/') (hp : ∀ d ∈ o.debugPrefixes, PlainDir d) :
    Best fs true (o.debugPrefixes.reverse.map (under_dir · name)) ((findDebugImage fs o {} name).2.map (·.file)) :=
  getImageInPath_best hf rfl fun x hx => by simp only [target]; rw [join_plain (hp x hx) hn]; rfl

theorem idFileName_eq (b0 : Byte) (rest : BuildId) (d : Bool) : idPath b0 rest d = idFileName (b0 :: rest) d := by
  have hx : ∀ n, n < 16 → n.digitChar ≠ '/' := by decide
  have h1 : b0.toNat % 16 < 16 := by omega
  have hn : (rest.flatMap hexByte ++ (if d then ".debug".toList else [])).head? ≠ some '/' := by
    cases rest with
    | nil => cases d <;> decide
    | cons b1 rest =>
      have h0 : b1.toNat / 16 < 16 := by have := b1.isLt; omega
      simpa [hexByte] using hx _ h0
  unfold idPath join
  rw [if_neg hn, if_neg (by simpa [hexByte] using hx _ h1)]
  simp [hexByte, idFileName, hexId]
  rfl

/-- C70: a build id is looked for in the directories for such, the last first, and then asked of debuginfod.
(Partial: if the file is missing from one directory the search ends, see below.) -/
theorem C70_build_id_partial {fs : Files} (hf : ScriptsFit fs) {o : Options} (hl : o.noLocalFiles = false) (hb : o.noBuildIds = false) {d : Bool} {b : BuildId} (hne : b ≠ [])
    (hp : ∀ x ∈ (if d then o.debugBuildIdPrefixes else o.exeBuildIdPrefixes), PlainDir x ∧ fs.realpath (under_dir x (idFileName b d)) ≠ .noent)
    (hfetch : ∀ p c, fs.fetch d b = some (p, c) → fs.isElf c = true) :
    ∃ r, Best fs d ((if d then o.debugBuildIdPrefixes else o.exeBuildIdPrefixes).reverse.map fun x => real fs (under_dir x (idFileName b d))) r ∧
      fileOf (reply fs o {} (askId d b)).2 = .ok (r.or ((fs.fetch d b).map (·.1))) := by
  rw [reply_askId]
  cases b with
  | nil => exact absurd rfl hne
  | cons b0 rest =>
    rw [← idFileName_eq] at hp ⊢
    have h := getImageInPath_best (s := {}) (paths := if d then o.debugBuildIdPrefixes else o.exeBuildIdPrefixes) (name := idPath b0 rest d) (d := d) (resolve := true)
      (tgt := fun x => real fs (under_dir x (idPath b0 rest d))) hf (by cases d <;> rfl)
      (fun x hx => by
        obtain ⟨h1, h2⟩ := hp x hx
        rw [join_plain h1 (idPath_relative b0 rest d)]
        unfold target real
        rw [if_pos rfl]
        revert h2
        cases fs.realpath (under_dir x (idPath b0 rest d)) with
        | path q => intro _; rfl
        | error => intro _; rfl
        | noent => intro h; exact absurd rfl h)
    refine ⟨_, h, ?_⟩
    unfold getImageById
    simp only
    rw [if_neg (by simp [hb]), if_neg (by simp [hl])]
    have hg : ((({} : St).ids d).get (b0 :: rest)) = none := by cases d <;> rfl
    rw [hg]
    simp only
    generalize getImageInPath fs {} (if d then o.debugBuildIdPrefixes else o.exeBuildIdPrefixes) (idPath b0 rest d) d true = x
    obtain ⟨s', r⟩ := x
    cases r with
    | some i => rfl
    | none =>
      simp only
      cases hq : fs.fetch d (b0 :: rest) with
      | none => rfl
      | some pc =>
        obtain ⟨p, c⟩ := pc
        simp only
        rw [if_pos (hfetch p c hq)]
        rfl

/-- C70 fails for absolute names: only that file is looked at. The extra locations that are given for executables, shared libraries and debug files have no effect on them
(all names of programs and libraries that the dynamic linker reports are absolute, and so are debug links, which are taken to be in the directory of the program). -/
theorem C70_not_absolute {fs : Files} (hf : ScriptsFit fs) (o : Options) (hl : o.noLocalFiles = false) {name : Path} (hn : name.head? = some '/') (he : o.exePrefixes ≠ []) (extra : List Path) :
    Best fs false [name] ((findImage fs o {} name).2.map (·.file)) ∧
    (findImage fs { o with exePrefixes := o.exePrefixes ++ extra } {} name).2.map (·.file) = (findImage fs o {} name).2.map (·.file) := by
  have once : ∀ (n : Nat) r, Best fs false (List.replicate (n + 1) name) r → Best fs false [name] r := by
    intro n r
    induction n with
    | zero => intro h; exact h
    | succ n ih =>
      rintro (h | ⟨h, h'⟩)
      · exact Or.inl h
      · exact ih h'
  have uniq : ∀ r r', Best fs false [name] r → Best fs false [name] r' → r = r' := by
    have one : ∀ f f', HoldsImage fs false name f → HoldsImage fs false name f' → f = f' := by
      intro f f' h h'
      have h1 := (tryPath_provides hf {} name false f).2 h
      have h2 := (tryPath_provides hf {} name false f').2 h'
      rw [h1] at h2
      exact Option.some.inj h2
    intro r r' h h'
    rcases h with ⟨f, rfl, h⟩ | ⟨h, e⟩
    · rcases h' with ⟨f', rfl, h'⟩ | ⟨h', _⟩
      · rw [one f f' h h']
      · exact absurd h (h' f)
    · rcases h' with ⟨f', rfl, h'⟩ | ⟨_, e'⟩
      · exact absurd h' (h f')
      · rw [show r = none from e, show r' = none from e']
  have best : ∀ ps : List Path, ps ≠ [] → Best fs false [name] ((findImage fs { o with exePrefixes := ps } {} name).2.map (·.file)) := by
    intro ps hps
    have h : Best fs false (ps.reverse.map fun _ => name) ((findImage fs { o with exePrefixes := ps } {} name).2.map (·.file)) := by
      unfold findImage
      rw [if_neg (by simp [hl])]
      exact getImageInPath_best hf rfl fun x _ => by simp only [target, join, if_pos hn]; rfl
    have e : (ps.reverse.map fun _ => name) = List.replicate (ps.length - 1 + 1) name := by
      rw [List.map_const', List.length_reverse]
      congr 1
      cases ps with
      | nil => exact absurd rfl hps
      | cons a l => simp
    rw [e] at h
    exact once _ _ h
  exact ⟨best o.exePrefixes he, uniq _ _ (best (o.exePrefixes ++ extra) (by simp [he])) (best o.exePrefixes he)⟩

/-- In particular a debug file in the usual place for one, below /usr/lib/debug, is not found by the debug link of a program that is known by its absolute name. -/
theorem C70_not_debug_link (fs : Files) (o : Options) {file link : Path} (hfile : (parentPath file).head? = some '/')
    (hnot : ∀ c, fs.content (join (parentPath file) link) = some c → fs.isElf c = false) (hlink : link.head? ≠ some '/') :
    (getDebug fs o {} [] (some link) file).2 = .ok none := by
  have hj : (join (parentPath file) link).head? = some '/' := by
    unfold join
    rw [if_neg hlink]
    cases hp : parentPath file with
    | nil => rw [hp] at hfile; cases hfile
    | cons c p => rw [hp] at hfile; split <;> simpa using hfile
  unfold getDebug
  by_cases hx : o.noExtDebug = true
  · rw [if_pos hx]
  · rw [if_neg hx]
    simp only [getImageById, findDebugImage, getImageInPath]
    have hg : ((({} : St).names true).get (join (parentPath file) link)) = none := rfl
    rw [hg]
    simp only
    have hl : ∀ dirs s, ∃ s', searchLoop fs (join (parentPath file) link) true false dirs s = (s', .over none) := by
      intro dirs
      induction dirs with
      | nil => intro s; exact ⟨s, rfl⟩
      | cons x dirs ih =>
        intro s
        unfold searchLoop
        have e : target fs false (join x (join (parentPath file) link)) = some (join (parentPath file) link) := by
          simp only [target]; rw [join.eq_1 x, if_pos hj]; rfl
        rw [e]
        simp only
        have ht : ∃ s', tryPath fs s (join (parentPath file) link) true = (s', .next) := by
          unfold tryPath openFile
          simp only
          cases hc : fs.content (join (parentPath file) link) with
          | none => exact ⟨_, rfl⟩
          | some c => simp only [Bool.not_true, Bool.false_and, hnot c hc]; exact ⟨_, rfl⟩
        obtain ⟨s', ht⟩ := ht
        rw [ht]
        exact ih s'
    obtain ⟨s', hl⟩ := hl o.debugPrefixes.reverse {}
    rw [hl]

/-- C70 fails for build ids: if the last directory given does not have the file, no other is looked at. -/
theorem C70_not_build_id (fs : Files) (o : Options) {d : Bool} {b : BuildId} {x : Path} {dirs : List Path} (hx : PlainDir x)
    (hd : (if d then o.debugBuildIdPrefixes else o.exeBuildIdPrefixes) = dirs ++ [x]) (hr : fs.realpath (under_dir x (idFileName b d)) = .noent) (hf : fs.fetch d b = none) :
    (reply fs o {} (askId d b)).2 = .ok none := by
  rw [reply_askId]
  cases b with
  | nil => rfl
  | cons b0 rest =>
    rw [← idFileName_eq] at hr
    unfold getImageById
    simp only
    by_cases hb : o.noBuildIds = true
    · rw [if_pos hb]
    · rw [if_neg hb]
      have hg : ((({} : St).ids d).get (b0 :: rest)) = none := by cases d <;> rfl
      rw [hg]
      have h : (if o.noLocalFiles = true then (({} : St), none) else getImageInPath fs {} (if d then o.debugBuildIdPrefixes else o.exeBuildIdPrefixes) (idPath b0 rest d) d true) = ({}, none) := by
        split
        · rfl
        · unfold getImageInPath
          have hg : ((({} : St).names d).get (idPath b0 rest d)) = none := by cases d <;> rfl
          rw [hg, hd, List.reverse_append]
          simp only [List.reverse_singleton, List.singleton_append, searchLoop]
          rw [join_plain hx (idPath_relative b0 rest d)]
          have e : target fs true (under_dir x (idPath b0 rest d)) = none := by unfold target; rw [if_pos rfl, hr]
          rw [e]
      simp only
      rw [h]
      simp only
      rw [hf]

/-- C70 fails for scripts: of a long interpreter only the first 62 characters are used. -/
theorem C70_not_long (fs : Files) (o : Options) (hl : o.noLocalFiles = false) (hp : o.exePrefixes = [[]]) {name interp rest : Path} (hn : fs.content name = some (['#', '!'] ++ interp ++ rest))
    (hi : ∀ c ∈ interp, isSpace c = false) (h62 : 62 < interp.length) :
    (findImage fs o {} name).2.map (·.file) = (match fs.content (interp.take 62) with
      | some c => if fs.isElf c then some (interp.take 62) else none
      | none => none) := by
  have ej : join [] name = name := by unfold join; split <;> simp
  have ei : interpreter (['#', '!'] ++ interp ++ rest) = interp.take 62 := by
    unfold interpreter
    have e : ((['#', '!'] ++ interp ++ rest).take 64).drop 2 = interp.take 62 := by
      rw [List.append_assoc]
      simp only [List.cons_append, List.nil_append, List.take_succ_cons, List.drop_succ_cons, List.drop_zero]
      rw [List.take_append_of_le_length (by omega)]
    rw [e]
    have hi' : ∀ c ∈ interp.take 62, isSpace c = false := fun c hc => hi c (List.mem_of_mem_take hc)
    have h1 : (interp.take 62).dropWhile isSpace = interp.take 62 := by
      have := dropWhile_all (p := isSpace) (a := []) (b := interp.take 62) nofun fun c hc => hi' c (List.mem_of_mem_head? hc)
      simpa using this
    have h2 := takeWhile_all (p := fun c => !isSpace c) (a := interp.take 62) (b := []) (fun c hc => by simp [hi' c hc]) nofun
    rw [h1]
    simpa using h2
  have es : isScript (['#', '!'] ++ interp ++ rest) = true := by
    unfold isScript
    simp only [decide_eq_true_eq]
    refine ⟨?_, by simp⟩
    simp only [List.length_take, List.length_append, List.length_cons, List.length_nil]
    omega
  unfold findImage
  rw [if_neg (by simp [hl]), hp]
  unfold getImageInPath
  have hg : ((({} : St).names false).get name) = none := rfl
  rw [hg]
  simp only [List.reverse_singleton, searchLoop, ej, target, tryPath, openFile, hn, es, Bool.not_false, Bool.and_self, if_true, if_false, Bool.false_eq_true, ei, openImage]
  cases hc : fs.content (interp.take 62) with
  | none => simp only; rfl
  | some c =>
    simp only
    by_cases he : fs.isElf c = true
    · rw [if_pos he, if_pos he]; rfl
    · rw [if_neg he, if_neg he]; rfl

/-! ### C71: what is remembered -/

/-- C71: what has been looked up before never changes the file that a lookup finds, whatever has been done.
(Partial: all names are absolute, see below.) -/
theorem C71_transparent_partial (fs : Files) (o : Options) (h : List Use) (ha : ∀ u ∈ h, u.Absolute) (q : Ask) (hq : q.Absolute) :
    fileOf (reply fs o (afterUse fs o h) q).2 = fileOf (reply fs o {} q).2 := by
  unfold afterUse; rw [(reply_step (inv_after fs o h ha {} (cacheInv_empty fs o)) q hq).1, (reply_step (cacheInv_empty fs o) q hq).1]

theorem afterUse_append (fs : Files) (o : Options) (a b : List Use) : afterUse fs o (a ++ b) = b.foldl (useStep fs o) (afterUse fs o a) := by
  unfold afterUse; rw [List.foldl_append]

/-- C71: all lookups of a build id find the same image, until it is flushed. -/
theorem C71_same_image {fs : Files} {o : Options} (h : List Use) {d : Bool} {b : BuildId} {i : Image} (hi : (reply fs o (afterUse fs o h) (askId d b)).2 = .ok (some i)) (h' : List Use)
    (hu : ∀ u ∈ h', u ≠ .flush (some i)) : (reply fs o (afterUse fs o (h ++ [.ask (askId d b)] ++ h')) (askId d b)).2 = .ok (some i) := by
  have uq : UniqueIds (afterUse fs o h) := uniqueIds_after h {} (fun d b v v' hm => by cases d <;> exact nomatch hm)
  rw [reply_askId] at hi
  have h1 := holdsId_found (uq d b) hi
  have h2 : HoldsId (afterUse fs o (h ++ [.ask (askId d b)])) d b i := by
    rw [afterUse_append]
    show HoldsId (reply fs o (afterUse fs o h) (askId d b)).1 d b i
    rw [reply_askId]; exact h1
  have h3 := holdsId_after (fs := fs) (o := o) h' hu _ h2
  rw [← afterUse_append] at h3
  rw [reply_askId]
  have hg := h3.get
  have hb : o.noBuildIds = false := by
    cases hb : o.noBuildIds with
    | false => rfl
    | true =>
      cases b with
      | nil => cases hi
      | cons b0 rest => simp only [getImageById, hb, if_true] at hi; cases hi
  cases b with
  | nil => cases hi
  | cons b0 rest =>
    unfold getImageById
    simp only [hb, hg]
    rfl

/-- C71: an image that has been flushed is not found any more. -/
theorem C71_flushed {fs : Files} {o : Options} (h h' h'' : List Use) {q : Ask} {i : Image} (hi : (reply fs o (afterUse fs o h) q).2 = .ok (some i)) (q' : Ask) :
    (reply fs o (afterUse fs o (h ++ [.ask q] ++ h' ++ [.flush (some i)] ++ h'')) q').2 ≠ .ok (some i) := by
  have hk : Known' (afterUse fs o h) := known_after h {} ⟨(fun d n i hm => by cases d <;> exact nomatch hm), (fun d n i hm => by cases d <;> exact nomatch hm)⟩
  have h1 := (known_reply hk q).2 i hi
  have mono : ∀ (l : List Use) (s : St), s.made ≤ (l.foldl (useStep fs o) s).made := by
    intro l
    induction l with
    | nil => intro s; exact Nat.le_refl _
    | cons u l ih => intro s; exact Nat.le_trans (made_mono (fs := fs) (o := o) s u) (ih _)
  have h2 : i.id < (afterUse fs o (h ++ [.ask q] ++ h')).made := by
    rw [afterUse_append, afterUse_append]
    exact Nat.lt_of_lt_of_le h1 (mono h' _)
  rw [afterUse_append, afterUse_append]
  exact (without_reply (without_after (fs := fs) (o := o) h'' _ (without_flush h2)) q').1

/-- C71: the debug information of an image is made once, until it is flushed. -/
theorem C71_same_info {fs : Files} {o : Options} (h : List Use) (i : Image) (h' : List Use) (hu : ∀ u ∈ h', ∀ j, u = .flush (some j) → j.id ≠ i.id) :
    (findDwarf (afterUse fs o (h ++ [.dwarf i] ++ h')) (some i)).2 = (findDwarf (afterUse fs o h) (some i)).2 := by
  have h0 : InfoInv (afterUse fs o h) := infoInv_after h {} ⟨nofun, nofun⟩
  obtain ⟨_, d, h1, h2⟩ := infoInv_dwarf h0 i
  have h3 := info_kept_after (fs := fs) (o := o) h' hu _ h2
  have e : h'.foldl (useStep fs o) (findDwarf (afterUse fs o h) (some i)).1 = afterUse fs o (h ++ [.dwarf i] ++ h') := by
    rw [afterUse_append, afterUse_append]; rfl
  rw [e] at h3
  have h4 : InfoInv (afterUse fs o (h ++ [.dwarf i] ++ h')) := infoInv_after _ {} ⟨nofun, nofun⟩
  obtain ⟨h5, d', h6, h7⟩ := infoInv_dwarf h4 i
  have h8 : (i.id, d) ∈ (findDwarf (afterUse fs o (h ++ [.dwarf i] ++ h')) (some i)).1.dwarfCache :=
    info_kept (fs := fs) (o := o) h3 (.dwarf i) nofun
  rw [h6, h1, (h5.apart _ _ _ _ h7 h8).1 rfl]

/-- C71: that of another image is something else. -/
theorem C71_other_info {fs : Files} {o : Options} (h : List Use) (i j : Image) (hij : i.id ≠ j.id) (h' : List Use) (hu : ∀ u ∈ h', ∀ j, u = .flush (some j) → j.id ≠ i.id) :
    (findDwarf (afterUse fs o (h ++ [.dwarf i] ++ h')) (some j)).2 ≠ (findDwarf (afterUse fs o h) (some i)).2 := by
  have h0 : InfoInv (afterUse fs o h) := infoInv_after h {} ⟨nofun, nofun⟩
  obtain ⟨_, d, h1, h2⟩ := infoInv_dwarf h0 i
  have h3 := info_kept_after (fs := fs) (o := o) h' hu _ h2
  have e : h'.foldl (useStep fs o) (findDwarf (afterUse fs o h) (some i)).1 = afterUse fs o (h ++ [.dwarf i] ++ h') := by
    rw [afterUse_append, afterUse_append]; rfl
  rw [e] at h3
  have h4 : InfoInv (afterUse fs o (h ++ [.dwarf i] ++ h')) := infoInv_after _ {} ⟨nofun, nofun⟩
  obtain ⟨h5, d', h6, h7⟩ := infoInv_dwarf h4 j
  have h8 : (i.id, d) ∈ (findDwarf (afterUse fs o (h ++ [.dwarf i] ++ h')) (some j)).1.dwarfCache :=
    info_kept (fs := fs) (o := o) h3 (.dwarf j) nofun
  rw [h6, h1]
  intro e
  exact hij ((h5.apart _ _ _ _ h7 h8).2 (Res.ok.inj e)).symm

/-- C71 fails for names: an image that is found by its name is not remembered, and the next lookup makes another one (with debug information of its own). -/
theorem C71_not_same_name (fs : Files) (o : Options) (hl : o.noLocalFiles = false) (hp : o.exePrefixes = [[]]) {name : Path} {c : List Char} (hc : fs.content name = some c) (he : fs.isElf c = true)
    (hs : c.take 2 ≠ ['#', '!']) (h : List Use) (hu : ∀ u ∈ h, ∃ n, u = .ask (.name n) ∧ ∃ c, fs.content n = some c ∧ fs.isElf c = true ∧ c.take 2 ≠ ['#', '!']) :
    (reply fs o (afterUse fs o h) (.name name)).2 = .ok (some ⟨h.length, name, false⟩) := by
  have step : ∀ (s : St) (n : Path) (c : List Char), s.imageByName = [] → fs.content n = some c → fs.isElf c = true → c.take 2 ≠ ['#', '!'] →
      (reply fs o s (.name n)).2 = .ok (some ⟨s.made, n, false⟩) ∧ (reply fs o s (.name n)).1.imageByName = [] ∧ (reply fs o s (.name n)).1.made = s.made + 1 := by
    intro s n c hs hc he hsc
    have ej : join [] n = n := by unfold join; split <;> simp
    have hg : ((s.names false).get n) = none := by simp [St.names, hs, Cache.get]
    have es : isScript c = false := by unfold isScript; simp [hsc]
    simp only [reply, findImage, hl, hp, Bool.false_eq_true, if_false, getImageInPath, hg, List.reverse_singleton, searchLoop, target, ej, tryPath, openFile, hc, es, Bool.not_false, Bool.and_false, he,
      if_true, St.make]
    exact ⟨trivial, hs, trivial⟩
  have inv : ∀ (l : List Use) (s : St), (∀ u ∈ l, ∃ n, u = .ask (.name n) ∧ ∃ c, fs.content n = some c ∧ fs.isElf c = true ∧ c.take 2 ≠ ['#', '!']) → s.imageByName = [] →
      (l.foldl (useStep fs o) s).imageByName = [] ∧ (l.foldl (useStep fs o) s).made = s.made + l.length := by
    intro l
    induction l with
    | nil => intro s _ h; exact ⟨h, rfl⟩
    | cons u l ih =>
      intro s hu hs
      obtain ⟨n, rfl, c, h1, h2, h3⟩ := hu u (by simp)
      obtain ⟨_, h5, h6⟩ := step s n c hs h1 h2 h3
      obtain ⟨h7, h8⟩ := ih (useStep fs o s (.ask (.name n))) (fun u hu' => hu u (by simp [hu'])) h5
      refine ⟨h7, ?_⟩
      rw [List.foldl_cons, h8]
      show (reply fs o s (.name n)).1.made + l.length = _
      rw [h6, List.length_cons]; omega
  obtain ⟨h1, h2⟩ := inv h {} hu rfl
  rw [(step (afterUse fs o h) name c h1 hc he hs).1]
  show Res.ok (some (⟨(h.foldl (useStep fs o) {}).made, name, false⟩ : Image)) = _
  rw [h2]
  simp

/-- C71 fails for relative names: a name that is that of the file for a build id is looked up in the same place as that. -/
theorem C71_not_relative : ∃ (fs : Files) (o : Options) (h : List Use) (q : Ask),
    fileOf (reply fs o {} q).2 = .ok (some "ab/cd".toList) ∧ fileOf (reply fs o (afterUse fs o h) q).2 = .ok none := by
  refine ⟨⟨fun _ => .error, fun _ => .error, fun p => if p = "ab/cd".toList then some ['E'] else none, fun _ => true, fun _ _ => none⟩,
    ⟨false, false, false, [], [], [[]], []⟩, [.ask (.id [0xab, 0xcd])], .name "ab/cd".toList, ?_, ?_⟩ <;> decide +kernel

/-! ### C72: links -/

/-- C72: links are followed to the end. -/
theorem C72_resolves {fs : Files} {a b : Path} (h : Links fs a b) (hb : fs.readlink b = .einval) : ∃ n, ∀ m, n ≤ m → linkResolve fs a m a = some b := by
  obtain ⟨k, hk⟩ := linkResolve_links h a
  refine ⟨1 + k, fun m hm => ?_⟩
  have e : linkResolve fs a (1 + k) a = some b := by rw [hk, linkResolve, hb]
  have := linkResolve_mono (1 + k) e (m - (1 + k))
  rwa [Nat.add_sub_cancel' hm] at this

/-- C72: if they end at something that cannot be read (such as a file that has been deleted), the answer is the name that was given. -/
theorem C72_dangling {fs : Files} {a b : Path} (h : Links fs a b) (hb : fs.readlink b = .error) : ∃ n, ∀ m, n ≤ m → linkResolve fs a m a = some a := by
  obtain ⟨k, hk⟩ := linkResolve_links h a
  refine ⟨1 + k, fun m hm => ?_⟩
  have e : linkResolve fs a (1 + k) a = some a := by rw [hk, linkResolve, hb]
  have := linkResolve_mono (1 + k) e (m - (1 + k))
  rwa [Nat.add_sub_cancel' hm] at this

/-- C72 fails for links in a circle: there is no end. -/
theorem C72_not_circle {fs : Files} {a t : Path} (h : Link1 fs a t) (h' : Links fs t a) (n : Nat) : linkResolve fs a n a = none := linkResolve_cycle h h' a n

/-! ### C73: options -/

theorem byId_opened {fs : Files} {o : Options} (hl : o.noLocalFiles = true) (s : St) (b : BuildId) (d : Bool) : (getImageById fs o s b d).1.opened = s.opened := by
  have hp : ∀ (s : St) v b, (s.putId d b v).opened = s.opened := by intro s v b; cases d <;> rfl
  unfold getImageById
  cases b with
  | nil => rfl
  | cons b0 rest =>
    simp only [hl, if_true]
    split
    · rfl
    · cases (s.ids d).get (b0 :: rest) with
      | some v => rfl
      | none =>
        simp only
        cases fs.fetch d (b0 :: rest) with
        | none => exact hp ..
        | some pc =>
          simp only
          split
          · exact hp ..
          · rfl

/-- C73: with --no-local-files, no lookup of an image by its name, and none by a build id, opens a local file.
(Partial: those of debug images by their names do, see below.) -/
theorem C73_no_local_partial (fs : Files) (o : Options) (hl : o.noLocalFiles = true) (h : List Use) (hu : ∀ u ∈ h, ∀ n, u ≠ .ask (.debugName n)) : (afterUse fs o h).opened = [] := by
  have : ∀ (l : List Use) (s : St), (∀ u ∈ l, ∀ n, u ≠ .ask (.debugName n)) → (l.foldl (useStep fs o) s).opened = s.opened := by
    intro l
    induction l with
    | nil => intro s _; rfl
    | cons u l ih =>
      intro s hu
      rw [List.foldl_cons, ih _ fun u hu' => hu u (by simp [hu'])]
      cases u with
      | ask q =>
        cases q with
        | name n => simp only [useStep, reply, findImage, hl, if_true]
        | debugName n => exact absurd rfl (hu _ (by simp) n)
        | id b => exact byId_opened hl s b false
        | debugId b => exact byId_opened hl s b true
      | flush i => rfl
      | dwarf i => unfold useStep findDwarf; simp only; split <;> rfl
  exact this h {} hu

/-- C73 fails for debug links, which are opened. -/
theorem C73_not_debug_link (fs : Files) (o : Options) (hx : o.noExtDebug = false) (hp : o.debugPrefixes ≠ []) {file link : Path} (hlink : link.head? ≠ some '/')
    (hfile : (parentPath file).head? = some '/') : join (parentPath file) link ∈ (getDebug fs o {} [] (some link) file).1.opened := by
  have hj : (join (parentPath file) link).head? = some '/' := by
    unfold join
    rw [if_neg hlink]
    cases hp : parentPath file with
    | nil => rw [hp] at hfile; cases hfile
    | cons c p => rw [hp] at hfile; split <;> simpa using hfile
  generalize hname : join (parentPath file) link = name at hj ⊢
  have more : ∀ (dirs : List Path) (s : St), name ∈ s.opened → name ∈ (searchLoop fs name true false dirs s).1.opened := by
    intro dirs
    induction dirs with
    | nil => intro s h; exact h
    | cons x dirs ih =>
      intro s h
      unfold searchLoop
      have e : target fs false (join x name) = some name := by simp only [target]; rw [join.eq_1 x, if_pos hj]; rfl
      rw [e]
      simp only [tryPath, openFile]
      cases fs.content name with
      | none => exact ih _ (by simp)
      | some c =>
        simp only [Bool.not_true, Bool.false_and, Bool.false_eq_true, if_false]
        by_cases he : fs.isElf c = true
        · rw [if_pos he]; simp [St.make]
        · rw [if_neg he]; exact ih _ (by simp)
  have some1 : ∀ (dirs : List Path) (s : St), dirs ≠ [] → name ∈ (searchLoop fs name true false dirs s).1.opened := by
    intro dirs s hd
    cases dirs with
    | nil => exact absurd rfl hd
    | cons x dirs =>
      unfold searchLoop
      have e : target fs false (join x name) = some name := by simp only [target]; rw [join.eq_1 x, if_pos hj]; rfl
      rw [e]
      simp only [tryPath, openFile]
      cases fs.content name with
      | none => exact more _ _ (by simp)
      | some c =>
        simp only [Bool.not_true, Bool.false_and, Bool.false_eq_true, if_false]
        by_cases he : fs.isElf c = true
        · rw [if_pos he]; simp [St.make]
        · rw [if_neg he]; exact more _ _ (by simp)
  unfold getDebug
  rw [if_neg (by simp [hx])]
  simp only [getImageById, findDebugImage, getImageInPath, hname]
  have hg : ((({} : St).names true).get name) = none := rfl
  rw [hg]
  simp only
  have h := some1 o.debugPrefixes.reverse {} (by simpa using hp)
  generalize searchLoop fs name true false o.debugPrefixes.reverse {} = x at h ⊢
  obtain ⟨s, t⟩ := x
  cases t <;> exact h

/-! ### Debug images -/

theorem parentPath_file {dir base : Path} (hd : dir.head? = some '/') (he : dir.getLast? ≠ some '/') (hb : '/' ∉ base) : parentPath (dir ++ '/' :: base) = dir := by
  have h1 : ∀ (l r : List Char), '/' ∉ l → (l ++ '/' :: r).dropWhile (· ≠ '/') = '/' :: r := by
    intro l r hl
    induction l with
    | nil => simp
    | cons c l ih =>
      have hc : c ≠ '/' := fun h => hl (by rw [h]; exact List.mem_cons_self)
      rw [List.cons_append, List.dropWhile_cons, if_pos (by simp [hc])]
      exact ih (fun h => hl (List.mem_cons_of_mem _ h))
  have h2 : ((dir ++ '/' :: base).reverse.dropWhile (· ≠ '/')).dropWhile (· = '/') = dir.reverse := by
    rw [List.reverse_append, List.reverse_cons, List.append_assoc, List.singleton_append, h1 _ _ (by simpa using hb), List.dropWhile_cons, if_pos (by simp)]
    have : dir.reverse.head? ≠ some '/' := by rw [List.head?_reverse]; exact he
    cases hr : dir.reverse with
    | nil => rfl
    | cons c l =>
      rw [hr] at this
      rw [List.dropWhile_cons, if_neg (by simpa using this)]
  unfold parentPath
  simp only [h2]
  rw [if_neg (by intro h; simp only [List.reverse_eq_nil_iff] at h; rw [h] at hd; cases hd), List.reverse_reverse]

theorem join_dir {dir link : Path} (hd : dir.head? = some '/') (he : dir.getLast? ≠ some '/') (hl : link.head? ≠ some '/') : join dir link = dir ++ '/' :: link := by
  unfold join
  rw [if_neg hl, if_neg (by
    rintro (h | h)
    · rw [h] at hd; cases hd
    · exact he h), List.append_assoc]
  rfl

/-- C70, C71: the debug image of a program is the one that its build id stands for; if there is none, it is what its debug link names in the directory of the program; and whatever was done before does not matter.
(Partial: as for the lookups themselves.) -/
theorem C71_debug_partial (fs : Files) (o : Options) (h : List Use) (ha : ∀ u ∈ h, u.Absolute) (hx : o.noExtDebug = false) (bid : BuildId) {dir base : Path} (hd : dir.head? = some '/')
    (he : dir.getLast? ≠ some '/') (hb : '/' ∉ base) (link : Option Path) (hl : ∀ l, link = some l → l.head? ≠ some '/') :
    (∀ f, fileOf (reply fs o {} (.debugId bid)).2 = .ok (some f) → fileOf (getDebug fs o (afterUse fs o h) bid link (dir ++ '/' :: base)).2 = .ok (some f)) ∧
    (fileOf (reply fs o {} (.debugId bid)).2 = .ok none → link = none → fileOf (getDebug fs o (afterUse fs o h) bid link (dir ++ '/' :: base)).2 = .ok none) ∧
    (fileOf (reply fs o {} (.debugId bid)).2 = .ok none → ∀ l, link = some l →
      fileOf (getDebug fs o (afterUse fs o h) bid link (dir ++ '/' :: base)).2 = fileOf (reply fs o {} (.debugName (dir ++ '/' :: l))).2) := by
  have t1 := C71_transparent_partial fs o h ha (.debugId bid) trivial
  have t2 : ∀ l, fileOf (reply fs o (reply fs o (afterUse fs o h) (.debugId bid)).1 (.debugName (dir ++ '/' :: l))).2 = fileOf (reply fs o {} (.debugName (dir ++ '/' :: l))).2 := by
    intro l
    have := C71_transparent_partial fs o (h ++ [.ask (.debugId bid)]) (by
      intro u hu
      rcases List.mem_append.1 hu with hu | hu
      · exact ha u hu
      · rw [List.mem_singleton.1 hu]; trivial) (.debugName (dir ++ '/' :: l)) (by
        show (dir ++ '/' :: l).head? = some '/'
        cases dir with
        | nil => cases hd
        | cons c t => exact hd)
    rw [afterUse_append] at this
    exact this
  rw [show reply fs o (afterUse fs o h) (.debugId bid) = getImageById fs o (afterUse fs o h) bid true from rfl] at t1 t2
  unfold getDebug
  rw [if_neg (by simp [hx])]
  generalize getImageById fs o (afterUse fs o h) bid true = g at t1 t2
  obtain ⟨s, r⟩ := g
  simp only at t1 t2 ⊢
  refine ⟨?_, ?_, ?_⟩
  · intro f hf
    rw [← t1] at hf
    cases r with
    | ok r =>
      cases r with
      | some i => exact hf
      | none => cases hf
    | exc => cases hf
    | ub => cases hf
    | abort => cases hf
  · intro hf hn
    rw [← t1] at hf
    cases r with
    | ok r =>
      cases r with
      | some i => cases hf
      | none => subst hn; rfl
    | exc => cases hf
    | ub => cases hf
    | abort => cases hf
  · intro hf l hl'
    rw [← t1] at hf
    cases r with
    | ok r =>
      cases r with
      | some i => cases hf
      | none =>
        subst hl'
        rw [← t2 l]
        simp only
        rw [parentPath_file hd he hb, join_dir hd he (hl l rfl)]
        rfl
    | exc => cases hf
    | ub => cases hf
    | abort => cases hf

/-- With --no-ext-debug there is none. -/
theorem C71_no_ext_debug (fs : Files) (o : Options) (s : St) (hx : o.noExtDebug = true) (bid : BuildId) (link : Option Path) (file : Path) : getDebug fs o s bid link file = (s, .ok none) := by
  unfold getDebug
  rw [if_pos hx]

/-! ### Examples -/

/-- Some files: a shell, a script, an image in /opt and one below it (in the place for a build id), and text. -/
def imageFiles : Files where
  realpath := fun p => if p = "/ids/ab/cd".toList then .path "/opt/tool".toList else .noent
  readlink := fun p => if p = "/proc/1/exe".toList then .target "/lib/ld".toList else if p = "/lib/ld".toList then .target "ld.so".toList else if p = "/lib/ld.so".toList then .einval
    else if p = "/a".toList then .target "b".toList else if p = "/b".toList then .target "/a".toList else .error
  content := fun p => if p = "/bin/sh".toList ∨ p = "/opt/tool".toList then some "ELF".toList else if p = "tool".toList then some "#! /bin/sh -x".toList else if p = "/usr/tool".toList then some "text".toList
    else none
  isElf := fun c => c.head? = some 'E'
  fetch := fun _ _ => none

def imageOptions : Options where
  debugPrefixes := ["/usr/lib/debug".toList]
  debugBuildIdPrefixes := []
  exePrefixes := [[], "/usr".toList]
  exeBuildIdPrefixes := ["/ids".toList]

theorem imageFiles_fit : ScriptsFit imageFiles := by
  intro p c h h2
  simp only [imageFiles] at h
  split at h
  · cases h; exact absurd h2 (by decide)
  · split at h
    · cases h; exact ⟨by decide, [' '], "/bin/sh".toList, " -x".toList, by decide, by simp, by decide, by decide, by decide, by decide⟩
    · split at h
      · cases h; exact absurd h2 (by decide)
      · cases h

/-- C70: text in /usr is passed over; the script stands for the shell. -/
theorem C70_example : Best imageFiles false ["/usr/tool".toList, "tool".toList] ((findImage imageFiles imageOptions {} "tool".toList).2.map (·.file)) ∧
    (findImage imageFiles imageOptions {} "tool".toList).2.map (·.file) = some "/bin/sh".toList :=
  ⟨C70_search_partial (o := imageOptions) (name := "tool".toList) imageFiles_fit rfl (by decide) (by decide), by decide +kernel⟩

theorem C70_build_id_example : fileOf (reply imageFiles imageOptions {} (.id [0xab, 0xcd])).2 = .ok (some "/opt/tool".toList) := by
  obtain ⟨r, h1, h2⟩ := C70_build_id_partial (o := imageOptions) (d := false) (b := [0xab, 0xcd]) imageFiles_fit rfl rfl (by simp) (by
    intro x hx
    have : x = "/ids".toList := by simpa [imageOptions] using hx
    subst this; decide +kernel) nofun
  have h3 : reply imageFiles imageOptions {} (.id [0xab, 0xcd]) = reply imageFiles imageOptions {} (askId false [0xab, 0xcd]) := rfl
  rw [h3, h2]
  rcases h1 with ⟨f, rfl, h⟩ | ⟨h, _⟩
  · cases h with
    | image c h1 h2 => rfl
    | script c i ci _ h1 h2 => exact absurd (scriptOf_take h2) (by
        have e : imageFiles.content "/opt/tool".toList = some "ELF".toList := by decide
        have e' : c = "ELF".toList := Option.some.inj (h1.symm.trans e)
        subst e'; decide)
  · exact absurd (HoldsImage.image (fs := imageFiles) (isDebug := false) (p := "/opt/tool".toList) "ELF".toList (by decide) (by decide)) (h _)

/-- With another directory for build ids, the same is not found. -/
theorem C70_not_build_id_example : (reply imageFiles { imageOptions with exeBuildIdPrefixes := ["/ids".toList, "/more".toList] } {} (askId false [0xab, 0xcd])).2 = .ok none :=
  C70_not_build_id imageFiles _ (dirs := ["/ids".toList]) (x := "/more".toList) (by decide) rfl (by decide +kernel) rfl

/-- /usr/opt/tool is not looked for. -/
theorem C70_not_absolute_example : (findImage imageFiles { imageOptions with exePrefixes := imageOptions.exePrefixes ++ ["/sysroot".toList] } {} "/opt/tool".toList).2.map (·.file) = some "/opt/tool".toList := by
  rw [(C70_not_absolute imageFiles_fit imageOptions rfl (name := "/opt/tool".toList) rfl (by simp [imageOptions]) ["/sysroot".toList]).2]
  decide +kernel

/-- The debug link of /opt/tool, with the debug file in /usr/lib/debug/opt/tool.debug. -/
theorem C70_not_debug_link_example : (getDebug { imageFiles with content := fun p => if p = "/usr/lib/debug/opt/tool.debug".toList then some "ELF".toList else none } imageOptions {} [] (some "tool.debug".toList)
    "/opt/tool".toList).2 = .ok none :=
  C70_not_debug_link _ _ (by decide) (by
    intro c h
    have e : join (parentPath "/opt/tool".toList) "tool.debug".toList ≠ "/usr/lib/debug/opt/tool.debug".toList := by decide
    simp only [if_neg e] at h
    cases h) (by decide)

/-- The debug image of /opt/tool: there is none for its id, and its link is "tool.debug". -/
theorem C71_debug_example : fileOf (getDebug { imageFiles with content := fun p => if p = "/opt/tool.debug".toList then some "ELF".toList else none } imageOptions
      (afterUse { imageFiles with content := fun p => if p = "/opt/tool.debug".toList then some "ELF".toList else none } imageOptions [.ask (.debugId [1]), .flush none]) [7] (some "tool.debug".toList)
      "/opt/tool".toList).2 = .ok (some "/opt/tool.debug".toList) := by
  rw [show "/opt/tool".toList = "/opt".toList ++ '/' :: "tool".toList from by decide]
  rw [(C71_debug_partial _ _ [.ask (.debugId [1]), .flush none] (by
    intro u hu
    simp only [List.mem_cons, List.not_mem_nil, or_false] at hu
    rcases hu with rfl | rfl <;> trivial) (by decide) [7] (by decide) (by decide) (by decide) (some "tool.debug".toList) (by
    intro l hl; injection hl with hl; subst hl; decide)).2.2 (by decide +kernel) _ rfl]
  decide +kernel

/-- C71: after some lookups, a flush and another, the build id still stands for the file. -/
theorem C71_example : fileOf (reply imageFiles imageOptions (afterUse imageFiles imageOptions [.ask (.id [0xab, 0xcd]), .ask (.name "/bin/sh".toList), .dwarf ⟨0, "/opt/tool".toList, false⟩,
      .flush (some ⟨0, "/opt/tool".toList, false⟩), .ask (.debugId [0xab])]) (.id [0xab, 0xcd])).2 = .ok (some "/opt/tool".toList) ∧
    (reply imageFiles imageOptions (afterUse imageFiles imageOptions []) (askId false [0xab, 0xcd])).2 = .ok (some ⟨0, "/opt/tool".toList, false⟩) := by
  refine ⟨?_, by decide +kernel⟩
  rw [C71_transparent_partial _ _ _ (by
    intro u hu
    simp only [List.mem_cons, List.not_mem_nil, or_false] at hu
    rcases hu with rfl | rfl | rfl | rfl | rfl <;> trivial) (.id [0xab, 0xcd]) trivial]
  exact C70_build_id_example

theorem C71_not_same_name_example : (reply imageFiles { imageOptions with exePrefixes := [[]] } (afterUse imageFiles { imageOptions with exePrefixes := [[]] } [.ask (.name "/bin/sh".toList)]) (.name "/bin/sh".toList)).2 =
    .ok (some ⟨1, "/bin/sh".toList, false⟩) :=
  C71_not_same_name imageFiles _ rfl rfl (c := "ELF".toList) (by decide) (by decide) (by decide) _ (by
    intro u hu
    simp only [List.mem_singleton] at hu
    exact ⟨_, hu, "ELF".toList, by decide, by decide, by decide⟩)

/-- C72: /proc/1/exe leads to /lib/ld, which leads to ld.so beside it. -/
theorem C72_example : Links imageFiles "/proc/1/exe".toList "/lib/ld.so".toList ∧ imageFiles.readlink "/lib/ld.so".toList = .einval ∧
    ∀ n, linkResolve imageFiles "/a".toList n "/a".toList = none := by
  refine ⟨.step _ _ _ (.absolute _ "/lib/ld".toList (by decide) (by decide) (by decide)) (.step _ _ _ (.relative "/lib/".toList "ld".toList "ld.so".toList (by decide) (by decide) (by decide) (by decide) (by decide)) (.here _)),
    by decide, fun n => ?_⟩
  exact C72_not_circle (.relative "/".toList "a".toList "b".toList (by decide) (by decide) (by decide) (by decide) (by decide))
    (.step _ _ _ (.absolute _ "/a".toList (by decide) (by decide) (by decide)) (.here _)) n

/-- C73: a history with names, build ids and a flush. -/
theorem C73_example : (afterUse imageFiles { imageOptions with noLocalFiles := true } [.ask (.name "/bin/sh".toList), .ask (.id [0xab, 0xcd]), .flush none, .ask (.debugId [1])]).opened = [] ∧
    "/opt/tool.debug".toList ∈ (getDebug imageFiles { imageOptions with noLocalFiles := true } {} [] (some "tool.debug".toList) "/opt/tool".toList).1.opened :=
  ⟨C73_no_local_partial _ _ rfl _ (by simp), C73_not_debug_link _ _ rfl (by simp [imageOptions]) (by decide) (by decide)⟩

end Pstack.Props
