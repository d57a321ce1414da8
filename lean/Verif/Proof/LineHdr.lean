import Verif.Proof.Lines
/-
The header of a line table.
-/
namespace Pstack.Props
open Pstack.Reader Pstack.Spec Pstack.Dwarf Pstack.Lines

/-- Wherever the section has these bytes, the parser consumes them and returns this. -/
def Reads (d : List Byte) {α : Type} (p : Parse α) (bs : List Byte) (a : α) : Prop :=
  ∀ off rest, d.drop off = bs ++ rest → p off = .ok (a, off + bs.length)

section
variable {d : List Byte}

theorem Reads.bind {α β : Type} {p : Parse α} {f : α → Parse β} {bs cs : List Byte} {a : α} {b : β}
    (h1 : Reads d p bs a) (h2 : Reads d (f a) cs b) : Reads d (p >>= f) (bs ++ cs) b := by
  intro off rest h
  rw [List.append_assoc] at h
  rw [Parse.bind_ok (h1 off _ h), h2 _ rest (drop_prefix h), List.length_append, Nat.add_assoc]

theorem Reads.pure {α : Type} (a : α) : Reads d (Pure.pure a) [] a := fun _ _ _ => rfl

theorem Reads.map {α β : Type} {p : Parse α} {f : α → β} {bs : List Byte} {a : α} (h : Reads d p bs a) :
    Reads d (p >>= fun x => Pure.pure (f x)) bs (f a) := by
  have := h.bind (f := fun x => Pure.pure (f x)) (Reads.pure (f a))
  rwa [List.append_nil] at this

theorem Reads.lift {α : Type} {r : Res α} {a : α} (h : r = .ok a) : Reads d (Lines.lift r) [] a := by
  intro off rest _
  unfold Lines.lift
  rw [h]; rfl

theorem reads_u8 (b : Byte) : Reads d (getu8 d) [b] b := fun off rest h => getu8_prefix d rest b off h

theorem reads_byte (n : Nat) : Reads d (getu8 d) (leBytes 1 n) (BitVec.ofNat 8 n) := by
  have e : leBytes 1 n = [BitVec.ofNat 8 n] := by
    show [BitVec.ofNat 8 (n % 256)] = _
    congr 1
    apply BitVec.eq_of_toNat_eq
    simp
  rw [e]; exact reads_u8 _

theorem reads_u16 (n : Nat) (hn : n < 2 ^ 16) : Reads d (getu16 d) (leBytes 2 n) (BitVec.ofNat 16 n) := by
  intro off rest h
  have en : (BitVec.ofNat 16 n).toNat = n := by rw [BitVec.toNat_ofNat]; exact Nat.mod_eq_of_lt hn
  rw [getu16_prefix d rest (BitVec.ofNat 16 n) off (by rw [en]; exact h), leBytes_length]

theorem reads_uint (w n : Nat) (hw : w ≤ 16) (hn : n < 256 ^ w) : Reads d (getuint d w) (leBytes w n) (BitVec.ofNat 64 n) := by
  intro off rest h
  have := getuint_prefix d (leBytes w n) rest off h (by rw [leBytes_length]; exact hw)
  rw [leNat_leBytes, leBytes_length, Nat.mod_eq_of_lt hn] at this
  rw [leBytes_length]; exact this

variable (hw : d.length < W64)
include hw

theorem reads_uleb (n : Nat) (hn : n < 2 ^ 64) : Reads d (getuleb128 d) (encodeU n) (BitVec.ofNat 64 n) :=
  fun off rest h => ulebN d rest n hn off h hw

theorem reads_string (s : List Byte) (hs : GoodName s) : Reads d (getstring d) (s ++ [0#8]) s := by
  intro off rest h
  rw [List.append_assoc] at h
  rw [getstring_prefix d s rest off hs h hw]; simp

theorem reads_skip (bs : List Byte) (hne : bs ≠ []) : Reads d (skip bs.length) bs () := by
  intro off rest h
  have := off_le_of_drop h hne
  unfold skip
  rw [Nat.mod_eq_of_lt (by omega)]

omit hw in
theorem reads_times {α : Type} {p : Parse α} {β : Type} (enc : β → List Byte) (val : β → α) (l : List β)
    (h : ∀ x ∈ l, Reads d p (enc x) (val x)) : Reads d (times p l.length) (l.map enc).flatten (l.map val) := by
  induction l with
  | nil => exact Reads.pure []
  | cons x l ih =>
    rw [List.length_cons, times]
    exact (h x (by simp)).bind ((ih (fun y hy => h y (by simp [hy]))).map (f := fun more => val x :: more))

theorem reads_formats (fs : List Field5) (hl : fs.length < 256) :
    Reads d (readEntryFormats d) (formatBytes fs) (fs.map Field5.code) := by
  unfold readEntryFormats formatBytes
  refine (reads_byte fs.length).bind ?_
  rw [show (BitVec.ofNat 8 fs.length).toNat = fs.length by rw [BitVec.toNat_ofNat]; exact Nat.mod_eq_of_lt hl]
  refine reads_times (fun f => encodeU f.code.1 ++ encodeU f.code.2) Field5.code fs (fun f _ => ?_)
  have key : ∀ a b, a < 2 ^ 32 → b < 2 ^ 32 → Reads d (do
      let t ← getuleb128 d
      let f ← getuleb128 d
      pure ((t.setWidth 32).toNat, (f.setWidth 32).toNat)) (encodeU a ++ encodeU b) (a, b) := by
    intro a b ha hb
    refine (reads_uleb hw a (by omega)).bind ?_
    have := (reads_uleb hw b (by omega)).map (f := fun f => (((BitVec.ofNat 64 a).setWidth 32).toNat, (f.setWidth 32).toNat))
    rw [ofNat_trunc, ofNat_trunc, BitVec.toNat_ofNat, BitVec.toNat_ofNat, Nat.mod_eq_of_lt ha, Nat.mod_eq_of_lt hb] at this
    rwa [ofNat_trunc, BitVec.toNat_ofNat, Nat.mod_eq_of_lt ha]
  cases f <;> exact key _ _ (by decide) (by decide)

theorem reads_path (e : Env) (w : Nat) (hww : w ≤ 8) (hew : e.dwarfLen = w) (x : Entry5) (hn : GoodName x.file.name) (f : Field5) (hp : f.isPath = true)
    (hf : f.Fits e.lineStrings e.strings w x) : f.code.1 = 1 ∧ Reads d (readFormString d e f.code.2) (f.encode w x) x.file.name := by
  have ref : ∀ (sect : List Byte) (h1 : x.namePos < 256 ^ w) (rest : List Byte) (h2 : sect.drop x.namePos = x.file.name ++ 0#8 :: rest),
      Reads d (getuint d e.dwarfLen >>= fun off => Lines.lift (memString sect off.toNat)) (leBytes w x.namePos) x.file.name := by
    intro sect h1 rest h2
    rw [hew]
    have hlt : x.namePos < 2 ^ 64 := Nat.lt_of_lt_of_le h1 (by
      calc 256 ^ w ≤ 256 ^ 8 := Nat.pow_le_pow_right (by decide) hww
        _ = 2 ^ 64 := by decide)
    have := (reads_uint (d := d) w x.namePos (by omega) h1).bind (cs := []) (f := fun off => Lines.lift (memString sect off.toNat)) (Reads.lift (a := x.file.name) (by
      rw [BitVec.toNat_ofNat, Nat.mod_eq_of_lt hlt]
      exact memString_prefix sect _ rest _ hn h2))
    rwa [List.append_nil] at this
  cases f with
  | path => exact ⟨rfl, reads_string hw _ hn⟩
  | pathLineStr => obtain ⟨h1, rest, h2⟩ := hf; exact ⟨rfl, ref _ h1 rest h2⟩
  | pathStr => obtain ⟨h1, rest, h2⟩ := hf; exact ⟨rfl, ref _ h1 rest h2⟩
  | dirU => cases hp
  | dir1 => cases hp
  | dir2 => cases hp
  | md5 => cases hp

theorem reads_dir (x : Entry5) (l s : List Byte) (w : Nat) (f : Field5) (hp : f.isDir = true) (hf : f.Fits l s w x) :
    f.code.1 = 2 ∧ ∃ v, Reads d (readFormUnsigned d f.code.2) (f.encode w x) v ∧ v.setWidth 32 = BitVec.ofNat 32 x.file.dir := by
  cases f with
  | dirU =>
    have hf' : x.file.dir < 2 ^ 32 := hf
    exact ⟨rfl, _, reads_uleb hw _ (by omega), ofNat_trunc _⟩
  | dir1 =>
    have hf' : x.file.dir < 2 ^ 8 := hf
    refine ⟨rfl, _, (reads_byte x.file.dir).map, ?_⟩
    apply BitVec.eq_of_toNat_eq
    simp; omega
  | dir2 =>
    have hf' : x.file.dir < 2 ^ 16 := hf
    refine ⟨rfl, _, (reads_u16 x.file.dir hf').map, ?_⟩
    apply BitVec.eq_of_toNat_eq
    simp; omega
  | path => cases hp
  | pathLineStr => cases hp
  | pathStr => cases hp
  | md5 => cases hp

theorem reads_md5 (e : Env) (w : Nat) (x : Entry5) (f : Field5) (hp : f.isPath = false) (hd : f.isDir = false) (l s : List Byte)
    (hf : f.Fits l s w x) : f.code.1 = 5 ∧ Reads d (readForm d e f.code.2) (f.encode w x) () := by
  cases f with
  | md5 =>
    have hf' : x.md5.length = 16 := hf
    refine ⟨rfl, ?_⟩
    have := reads_skip hw x.md5 (by intro h; rw [h] at hf'; simp at hf')
    rw [hf'] at this
    exact this
  | path => cases hp
  | pathLineStr => cases hp
  | pathStr => cases hp
  | dirU => cases hd
  | dir1 => cases hd
  | dir2 => cases hd

theorem reads_dirEntry (e : Env) (w : Nat) (hww : w ≤ 8) (hew : e.dwarfLen = w) (x : Entry5) (hn : GoodName x.file.name) (fs : List Field5) :
    ∀ path, (∀ f ∈ fs, f.Fits e.lineStrings e.strings w x) → fs.any Field5.isDir = false →
      Reads d (dirEntry5 d e (fs.map Field5.code) path) (entryBytes w fs x) (if fs.any Field5.isPath then x.file.name else path) := by
  induction fs with
  | nil => intro path _ _; exact Reads.pure path
  | cons f fs ih =>
    intro path hf hd
    simp only [List.any_cons, Bool.or_eq_false_iff] at hd
    rw [List.map_cons, show entryBytes w (f :: fs) x = f.encode w x ++ entryBytes w fs x from rfl]
    rw [show f.code = (f.code.1, f.code.2) from rfl, dirEntry5]
    have hf' := fun g hg => hf g (List.mem_cons_of_mem f hg)
    cases hp : f.isPath with
    | true =>
      obtain ⟨c, g⟩ := reads_path hw e w hww hew x hn f hp (hf f (by simp))
      rw [if_pos c]
      refine g.bind ?_
      have := ih x.file.name hf' hd.2
      simpa [hp] using this
    | false =>
      obtain ⟨c, g⟩ := reads_md5 hw e w x f hp hd.1 _ _ (hf f (by simp))
      rw [if_neg (by omega)]
      refine g.bind ?_
      have := ih path hf' hd.2
      simpa [hp] using this

theorem reads_fileEntry (e : Env) (w : Nat) (hww : w ≤ 8) (hew : e.dwarfLen = w) (x : Entry5) (hn : GoodName x.file.name) (fs : List Field5) :
    ∀ ent, (∀ f ∈ fs, f.Fits e.lineStrings e.strings w x) →
      Reads d (fileEntry5 d e (fs.map Field5.code) ent) (entryBytes w fs x)
        ⟨if fs.any Field5.isPath then x.file.name else ent.name, if fs.any Field5.isDir then BitVec.ofNat 32 x.file.dir else ent.dirindex⟩ := by
  induction fs with
  | nil => intro path _; exact Reads.pure _
  | cons f fs ih =>
    intro ent hf
    rw [List.map_cons, show entryBytes w (f :: fs) x = f.encode w x ++ entryBytes w fs x from rfl]
    rw [show f.code = (f.code.1, f.code.2) from rfl, fileEntry5]
    have hf' := fun g hg => hf g (List.mem_cons_of_mem f hg)
    cases hp : f.isPath with
    | true =>
      obtain ⟨c, g⟩ := reads_path hw e w hww hew x hn f hp (hf f (by simp))
      have hnd : f.isDir = false := by cases f <;> first | rfl | cases hp
      rw [if_pos c]
      refine g.bind ?_
      have := ih { ent with name := x.file.name } hf'
      simpa [hp, hnd] using this
    | false =>
      cases hdir : f.isDir with
      | true =>
        obtain ⟨c, v, g, hv⟩ := reads_dir hw x _ _ w f hdir (hf f (by simp))
        rw [if_neg (by omega), if_pos c]
        refine g.bind ?_
        have := ih { ent with dirindex := v.setWidth 32 } hf'
        rw [hv] at this ⊢
        simpa [hp, hdir] using this
      | false =>
        obtain ⟨c, g⟩ := reads_md5 hw e w x f hp hdir _ _ (hf f (by simp))
        rw [if_neg (by omega), if_neg (by omega)]
        refine g.bind ?_
        have := ih ent hf'
        simpa [hp, hdir] using this

/-- The file table of a header: an unnamed one before version 5, then the files. -/
def fileTable (t : LineTables) : List FileEnt :=
  (match t with
    | .v4 .. => [⟨unknown, 0#32⟩]
    | .v5 .. => []) ++ t.sourceFiles.map (fun f => ⟨f.name, BitVec.ofNat 32 f.dir⟩)

theorem reads_tables5 (e : Env) (w : Nat) (hww : w ≤ 8) (hew : e.dwarfLen = w) (seg : Byte) (df : List Field5) (ds : List Entry5)
    (ff : List Field5) (fs : List Entry5) (hwf : (LineTables.v5 seg df ds ff fs).WF e.lineStrings e.strings w) :
    Reads d (tables5 d e) ((LineTables.v5 seg df ds ff fs).encode w)
      ((LineTables.v5 seg df ds ff fs).dirNames, fileTable (.v5 seg df ds ff fs)) := by
  obtain ⟨h1, h2, h3, h4, h5, h6, h7, h8, h9⟩ := hwf
  unfold tables5
  have e3 : ((BitVec.ofNat 64 ds.length).setWidth 32).toNat = ds.length := by
    rw [ofNat_trunc, BitVec.toNat_ofNat]; exact Nat.mod_eq_of_lt (by omega)
  have e4 : (BitVec.ofNat 64 fs.length).toNat = fs.length := by
    rw [BitVec.toNat_ofNat]; exact Nat.mod_eq_of_lt (by omega)
  have edir : (ds.map (fun x : Entry5 => x.file.name)).filter (· ≠ []) = ds.map (fun x : Entry5 => x.file.name) := by
    rw [List.filter_eq_self]
    intro a ha
    obtain ⟨x, hx, rfl⟩ := List.mem_map.1 ha
    simpa using (h8 x hx).1
  show Reads d _ (formatBytes df ++ encodeU ds.length ++ (ds.map (entryBytes w df)).flatten ++
      (formatBytes ff ++ encodeU fs.length ++ (fs.map (entryBytes w ff)).flatten)) _
  rw [List.append_assoc, List.append_assoc, List.append_assoc (formatBytes ff)]
  refine (reads_formats hw df h1).bind ?_
  refine (reads_uleb hw ds.length (by omega)).bind ?_
  rw [e3, if_neg (by omega)]
  have hds : Reads d (times (dirEntry5 d e (df.map Field5.code) []) ds.length) ((ds.map (entryBytes w df)).flatten)
      (ds.map (fun x : Entry5 => x.file.name)) := by
    refine reads_times (entryBytes w df) (fun x : Entry5 => x.file.name) ds (fun x hx => ?_)
    have := reads_dirEntry hw e w hww hew x (h8 x hx).2.1 df [] (h8 x hx).2.2 h6
    rwa [if_pos h5] at this
  refine hds.bind ?_
  refine (reads_formats hw ff h2).bind ?_
  refine (reads_uleb hw fs.length h4).bind ?_
  rw [e4]
  have hfs : Reads d (times (fileEntry5 d e (ff.map Field5.code) ⟨[], 0#32⟩) fs.length) ((fs.map (entryBytes w ff)).flatten)
      (fs.map (fun x : Entry5 => (⟨x.file.name, BitVec.ofNat 32 (if ff.any Field5.isDir then x.file.dir else 0)⟩ : FileEnt))) := by
    refine reads_times (entryBytes w ff) _ fs (fun x hx => ?_)
    have := reads_fileEntry hw e w hww hew x (h9 x hx).1 ff ⟨[], 0#32⟩ (h9 x hx).2
    rw [if_pos h7] at this
    cases hany : ff.any Field5.isDir
    · simpa [hany] using this
    · simpa [hany] using this
  have := hfs.map (f := fun fs => ((ds.map (fun x : Entry5 => x.file.name)).filter (· ≠ []), fs))
  rw [edir] at this
  have efs : fileTable (.v5 seg df ds ff fs) =
      fs.map (fun x : Entry5 => (⟨x.file.name, BitVec.ofNat 32 (if ff.any Field5.isDir then x.file.dir else 0)⟩ : FileEnt)) := by
    simp [fileTable, LineTables.sourceFiles, Function.comp_def]
  rw [efs, edir]
  exact this

theorem reads_dirs4 (ds : List (List Byte)) : ∀ fuel, ds.length < fuel → (∀ s ∈ ds, s ≠ [] ∧ GoodName s) →
    Reads d (dirs4 d fuel) ((ds.map (fun s => s ++ [0#8])).flatten ++ [0#8]) ds := by
  induction ds with
  | nil =>
    intro fuel hf _
    obtain ⟨f, rfl⟩ : ∃ f, fuel = f + 1 := ⟨fuel - 1, by omega⟩
    rw [dirs4]
    refine (show Reads d (getstring d >>= _) ([] ++ [0#8] ++ []) [] from (reads_string hw [] (by intro b hb; cases hb)).bind ?_)
    rw [if_pos rfl]; exact Reads.pure []
  | cons s ds ih =>
    intro fuel hf hs
    obtain ⟨f, rfl⟩ : ∃ f, fuel = f + 1 := ⟨fuel - 1, by omega⟩
    rw [dirs4, List.map_cons, List.flatten_cons, List.append_assoc]
    refine (reads_string hw s (hs s (by simp)).2).bind ?_
    rw [if_neg (hs s (by simp)).1]
    exact (ih f (by simp at hf; omega) (fun x hx => hs x (by simp [hx]))).map

theorem reads_file4 (x : FileEntry4) (hx : GoodName x.file.name ∧ x.file.dir < 2 ^ 32 ∧ x.mtime < 2 ^ 64 ∧ x.length < 2 ^ 64) :
    Reads d (fileEntry4 d) (file4Bytes x) ⟨x.file.name, BitVec.ofNat 32 x.file.dir⟩ := by
  unfold fileEntry4 file4Bytes
  rw [List.append_assoc, List.append_assoc]
  refine (reads_string hw _ hx.1).bind ((reads_uleb hw _ (by omega)).bind ((reads_uleb hw _ hx.2.2.1).bind ?_))
  rw [← ofNat_trunc]
  exact (reads_uleb hw _ hx.2.2.2).map

omit hw in
theorem reads_peek (b : Byte) (bs rest : List Byte) (off : Nat) (h : d.drop off = b :: bs ++ rest) : peek8 d off = .ok (b, off) := by
  unfold peek8
  rw [getu8_prefix d (bs ++ rest) b off h, Res.bind_ok]

theorem reads_files4 (fs : List FileEntry4) : ∀ fuel, fs.length < fuel →
    (∀ f ∈ fs, f.file.name ≠ [] ∧ GoodName f.file.name ∧ f.file.dir < 2 ^ 32 ∧ f.mtime < 2 ^ 64 ∧ f.length < 2 ^ 64) →
    Reads d (files4 d fuel) ((fs.map file4Bytes).flatten ++ [0#8]) (fs.map (fun f => ⟨f.file.name, BitVec.ofNat 32 f.file.dir⟩)) := by
  induction fs with
  | nil =>
    intro fuel hf _ off rest h
    obtain ⟨f, rfl⟩ : ∃ f, fuel = f + 1 := ⟨fuel - 1, by omega⟩
    rw [files4, Parse.bind_ok (reads_peek 0#8 [] rest off h), if_pos rfl]
    exact (reads_u8 0#8).map (f := fun _ => []) off rest h
  | cons x fs ih =>
    intro fuel hf hx off rest h
    obtain ⟨f, rfl⟩ : ∃ f, fuel = f + 1 := ⟨fuel - 1, by omega⟩
    obtain ⟨x1, x2⟩ := hx x (by simp)
    obtain ⟨b, tl, hb⟩ : ∃ b tl, x.file.name = b :: tl := by
      cases hc : x.file.name with
      | nil => exact absurd hc x1
      | cons b tl => exact ⟨b, tl, rfl⟩
    have h' : d.drop off = b :: (tl ++ ([0#8] ++ (encodeU x.file.dir ++ (encodeU x.mtime ++ (encodeU x.length ++ ((fs.map file4Bytes).flatten ++ [0#8])))))) ++ rest := by
      rw [h, List.map_cons, List.flatten_cons, file4Bytes, hb]; simp
    have h0 : b ≠ 0#8 := x2.1 b (by rw [hb]; simp)
    rw [files4, Parse.bind_ok (reads_peek b _ rest off h'), if_neg h0]
    have := (reads_file4 hw x x2).bind (f := fun v => files4 d f >>= fun more => Pure.pure (v :: more)) (((ih f (by simp at hf; omega) (fun y hy => hx y (by simp [hy]))).map (f := fun more => (⟨x.file.name, BitVec.ofNat 32 x.file.dir⟩ : FileEnt) :: more)))
    rw [← List.append_assoc] at this
    exact this off rest h

omit hw in
theorem flatten_ge {α : Type} (enc : α → List Byte) (l : List α) (h : ∀ x ∈ l, enc x ≠ []) : l.length ≤ ((l.map enc).flatten).length := by
  induction l with
  | nil => simp
  | cons x l ih =>
    have := List.length_pos_iff.2 (h x (by simp))
    have := ih (fun y hy => h y (by simp [hy]))
    simp only [List.map_cons, List.flatten_cons, List.length_append, List.length_cons]
    omega

theorem reads_tables4 (w : Nat) (dirs : List (List Byte)) (files : List FileEntry4) (l s : List Byte) (hwf : (LineTables.v4 dirs files).WF l s w) :
    Reads d (tables4 d) ((LineTables.v4 dirs files).encode w) ((LineTables.v4 dirs files).dirNames, fileTable (.v4 dirs files)) := by
  obtain ⟨h1, h2⟩ := hwf
  intro off rest h
  have hlen := congrArg List.length h
  rw [List.length_drop, List.length_append] at hlen
  have hb : (LineTables.v4 dirs files).encode w = ((dirs.map (fun s => s ++ [0#8])).flatten ++ [0#8]) ++ ((files.map file4Bytes).flatten ++ [0#8]) := by
    show _ ++ _ ++ _ ++ _ = _
    rw [List.append_assoc _ _ [0#8]]
  have g1 : dirs.length ≤ ((dirs.map (fun s => s ++ [0#8])).flatten).length := flatten_ge _ dirs (by simp)
  have g2 := flatten_ge file4Bytes files (by intro x _; simp [file4Bytes])
  rw [hb] at h hlen ⊢
  rw [List.length_append, List.length_append, List.length_append] at hlen
  have := (reads_dirs4 hw dirs (d.length + 1) (by omega) h1).bind (f := fun dirs => do
    let files ← files4 d (d.length + 1)
    pure (dot :: dirs, ⟨unknown, 0#32⟩ :: files)) ((reads_files4 hw files (d.length + 1) (by omega) h2).map
      (f := fun files => (dot :: dirs, (⟨unknown, 0#32⟩ : FileEnt) :: files))) off rest h
  have efs : fileTable (.v4 dirs files) = (⟨unknown, 0#32⟩ : FileEnt) :: files.map (fun f => ⟨f.file.name, BitVec.ofNat 32 f.file.dir⟩) := by
    simp [fileTable, LineTables.sourceFiles, Function.comp_def]
  rw [efs]
  exact this

/-- The header that is read for a table. -/
def headerOf (t : LineTable) : LineHdr :=
  ⟨t.params.addressSize, BitVec.ofNat 8 t.params.minInsn, t.params.defaultIsStmt, BitVec.ofInt 8 t.params.lineBase,
    BitVec.ofNat 8 t.params.lineRange, BitVec.ofNat 8 t.params.opcodeBase, t.tables.dirNames, fileTable t.tables⟩

omit hw in
theorem headerOf_is (t : LineTable) (hp : t.params.WF) : HdrIs (headerOf t) t.params := by
  obtain ⟨w1, w2, w3, w4, w5, w6, w7, w8, w9⟩ := hp
  refine ⟨?_, ?_, ?_, ?_, rfl, rfl⟩
  · show (BitVec.ofNat 8 _).toNat = _
    rw [BitVec.toNat_ofNat]; exact Nat.mod_eq_of_lt w1
  · show (BitVec.ofInt 8 _).toInt = _
    rw [BitVec.toInt_ofInt]; apply Int.bmod_eq_of_le <;> omega
  · show (BitVec.ofNat 8 _).toNat = _
    rw [BitVec.toNat_ofNat]; exact Nat.mod_eq_of_lt w6
  · show (BitVec.ofNat 8 _).toNat = _
    rw [BitVec.toNat_ofNat]; exact Nat.mod_eq_of_lt w8

theorem reads_params (e : Env) (t : LineTable) (hwf : t.WF e.lineStrings e.strings) (hew : 5 ≤ t.version → e.dwarfLen = t.width) :
    Reads d (lineParams d e t.version t.params.addressSize)
      (leBytes 1 t.params.minInsn ++ ((if t.version ≥ 4 then leBytes 1 t.params.maxOps else []) ++
        ([if t.params.defaultIsStmt then 1#8 else 0#8] ++ ([BitVec.ofInt 8 t.params.lineBase] ++ (leBytes 1 t.params.lineRange ++
          (leBytes 1 t.params.opcodeBase ++ (t.opLens ++ t.tables.encode t.width))))))) (headerOf t) := by
  have hw8 : t.width ≤ 8 := by unfold LineTable.width; split <;> omega
  obtain ⟨w1, w2, w3, w4, w5, w6, w7, w8, w9⟩ := hwf.params
  unfold lineParams
  refine (reads_byte _).bind ?_
  refine Reads.bind (a := if t.version ≥ 4 then BitVec.ofNat 8 t.params.maxOps else 1#8) ?_ ?_
  · unfold maxOpsByte
    by_cases hv : t.version ≥ 4
    · simp only [if_pos hv]; exact reads_byte _
    · simp only [if_neg hv]; exact Reads.pure _
  refine (reads_u8 _).bind ((reads_u8 _).bind ((reads_byte _).bind ((reads_byte _).bind ?_)))
  rw [show (BitVec.ofNat 8 t.params.opcodeBase).toNat = t.params.opcodeBase by rw [BitVec.toNat_ofNat]; exact Nat.mod_eq_of_lt w8,
    ← hwf.opLens]
  have hol : Reads d (times (getu8 d) t.opLens.length) t.opLens t.opLens := by
    have := reads_times (d := d) (p := getu8 d) (fun b : Byte => [b]) id t.opLens (fun b _ => reads_u8 b)
    rw [List.map_id] at this
    have e2 : (t.opLens.map (fun b => [b])).flatten = t.opLens := by
      induction t.opLens with
      | nil => rfl
      | cons b l ih => rw [List.map_cons, List.flatten_cons, ih]; rfl
    rwa [e2] at this
  refine hol.bind ?_
  have htab : Reads d (tables d e t.version) (t.tables.encode t.width) (t.tables.dirNames, fileTable t.tables) := by
    unfold tables
    have hk := hwf.kind
    have ht := hwf.tables
    cases htt : t.tables with
    | v4 a b =>
      have : t.version < 5 := hk.1 ⟨a, b, htt⟩
      rw [if_neg (by omega)]
      rw [htt] at ht
      exact reads_tables4 hw _ a b _ _ ht
    | v5 seg a b c dd =>
      have : ¬ t.version < 5 := fun h => by
        obtain ⟨x, y, hxy⟩ := hk.2 h
        rw [htt] at hxy; cases hxy
      rw [if_pos (by omega)]
      rw [htt] at ht
      exact reads_tables5 hw e _ hw8 (hew (by omega)) seg a b c dd ht
  have hst : decide ((if t.params.defaultIsStmt = true then 1#8 else 0#8) ≠ 0#8) = t.params.defaultIsStmt := by
    cases t.params.defaultIsStmt <;> rfl
  have := htab.map (f := fun (x : List (List Byte) × List FileEnt) => (⟨t.params.addressSize, BitVec.ofNat 8 t.params.minInsn,
    decide ((if t.params.defaultIsStmt = true then 1#8 else 0#8) ≠ 0#8), BitVec.ofInt 8 t.params.lineBase, BitVec.ofNat 8 t.params.lineRange,
    BitVec.ofNat 8 t.params.opcodeBase, x.1, x.2⟩ : LineHdr))
  rw [hst] at this
  rw [show (if t.params.defaultIsStmt = true then (1#8 : Byte) else 0#8) = if t.params.defaultIsStmt = true then 1#8 else 0#8 from rfl] at *
  rw [hst]
  exact this

/-- The bytes before the parameters. -/
def preBytes (t : LineTable) : List Byte :=
  leBytes 2 t.version ++
  ((match t.tables with
    | .v4 .. => []
    | .v5 seg .. => leBytes 1 t.params.addressSize ++ [seg]) ++
  leBytes t.width t.rest.length)

/-- The parameters and tables. -/
def paramBytes (t : LineTable) : List Byte :=
  leBytes 1 t.params.minInsn ++ ((if t.version ≥ 4 then leBytes 1 t.params.maxOps else []) ++
    ([if t.params.defaultIsStmt then 1#8 else 0#8] ++ ([BitVec.ofInt 8 t.params.lineBase] ++ (leBytes 1 t.params.lineRange ++
      (leBytes 1 t.params.opcodeBase ++ (t.opLens ++ t.tables.encode t.width))))))

def lenBytes (t : LineTable) : List Byte :=
  if t.fmt64 then leBytes 4 0xffffffff ++ leBytes 8 t.body.length else leBytes 4 t.body.length

omit hw in
theorem rest_eq (t : LineTable) : t.rest = paramBytes t ++ t.pad := by
  simp [LineTable.rest, paramBytes]

omit hw in
theorem body_eq (t : LineTable) : t.body = preBytes t ++ (paramBytes t ++ (t.pad ++ t.progBytes)) := by
  rw [LineTable.body, preBytes]
  simp only [rest_eq, List.append_assoc]
  cases t.tables <;> rfl

omit hw in
theorem encode_eq (t : LineTable) : t.encode = lenBytes t ++ (preBytes t ++ (paramBytes t ++ (t.pad ++ t.progBytes))) := by
  rw [LineTable.encode, lenBytes, body_eq]

/-- The size of the table fits its field. -/
def LineTable.Fits (t : LineTable) : Prop := t.body.length < if t.fmt64 then 2 ^ 64 else 0xfffffff0

omit hw in
theorem reads_len (t : LineTable) (hfit : LineTable.Fits t) : Reads d (getlength d) (lenBytes t) (t.body.length, t.width) := by
  intro off rest h
  unfold LineTable.Fits at hfit
  unfold lenBytes at h ⊢
  unfold LineTable.width
  cases hf : t.fmt64 with
  | true =>
    rw [hf] at h hfit
    simp only [if_true] at h hfit ⊢
    rw [List.append_assoc] at h
    rw [getlength_64 d rest _ off hfit h, List.length_append, leBytes_length, leBytes_length]
  | false =>
    rw [hf] at h hfit
    simp only [Bool.false_eq_true, if_false] at h hfit ⊢
    rw [getlength_32 d rest _ off hfit h, leBytes_length]

omit hw in
theorem reads_addrSize (t : LineTable) (ls ss : List Byte) (hwf : t.WF ls ss) :
    Reads d (lineAddrSize d t.version) (match t.tables with
      | .v4 .. => []
      | .v5 seg .. => leBytes 1 t.params.addressSize ++ [seg]) t.params.addressSize := by
  unfold lineAddrSize
  have hk := hwf.kind
  cases htt : t.tables with
  | v4 a b =>
    have h5 : t.version < 5 := hk.1 ⟨a, b, htt⟩
    rw [if_neg (by omega), hwf.addr8 h5]
    exact Reads.pure 8
  | v5 seg a b c dd =>
    have : ¬ t.version < 5 := fun h => by
      obtain ⟨x, y, hxy⟩ := hk.2 h
      rw [htt] at hxy; cases hxy
    rw [if_pos (by omega)]
    refine (reads_byte _).bind ?_
    have := (reads_u8 (d := d) seg).map (f := fun _ => (BitVec.ofNat 8 t.params.addressSize).toNat)
    obtain ⟨_, _, _, _, _, _, _, _, w9⟩ := hwf.params
    rwa [show (BitVec.ofNat 8 t.params.addressSize).toNat = t.params.addressSize by
      rw [BitVec.toNat_ofNat]; exact Nat.mod_eq_of_lt (by omega)] at this ⊢

omit hw in
theorem reads_prefix (t : LineTable) (ls ss : List Byte) (hwf : t.WF ls ss) (hfit : LineTable.Fits t) :
    Reads d (linePrefix d t.width) (preBytes t) (t.version, t.params.addressSize, BitVec.ofNat 64 t.rest.length) := by
  unfold linePrefix preBytes
  have hv := hwf.version
  refine (reads_u16 _ (by omega)).bind ?_
  have ev : (BitVec.ofNat 16 t.version).toNat = t.version := by rw [BitVec.toNat_ofNat]; exact Nat.mod_eq_of_lt (by omega)
  rw [ev]
  refine (reads_addrSize t ls ss hwf).bind ?_
  have ew : (if t.version > 2 then t.width else 4) = t.width := by
    split
    · rfl
    · have := hwf.v2 (by omega)
      unfold LineTable.width; rw [this]; rfl
  rw [ew]
  have hl : t.rest.length < 256 ^ t.width := by
    have hb : t.rest.length ≤ t.body.length := by rw [body_eq, rest_eq]; simp only [List.length_append]; omega
    unfold LineTable.Fits at hfit
    unfold LineTable.width
    cases hf : t.fmt64 with
    | true => rw [hf] at hfit; simp only [if_true] at hfit ⊢; omega
    | false => rw [hf] at hfit; simp only [Bool.false_eq_true, if_false] at hfit ⊢; omega
  have hw8 : t.width ≤ 16 := by unfold LineTable.width; split <;> omega
  exact (reads_uint (d := d) t.width t.rest.length hw8 hl).map (f := fun l => (t.version, t.params.addressSize, l))

/-- The header of a table. -/
theorem lineHeader_table (e : Env) (t : LineTable) (hwf : t.WF e.lineStrings e.strings) (hew : 5 ≤ t.version → e.dwarfLen = t.width) (hfit : LineTable.Fits t)
    (off : Nat) (rest : List Byte) (h : d.drop off = t.encode ++ rest) :
    ∃ p, lineHeader d e off = .ok ((headerOf t, p + t.progBytes.length), p) ∧ d.drop p = t.progBytes ++ rest ∧ p ≤ d.length := by
  rw [encode_eq] at h
  simp only [List.append_assoc] at h
  have hlen := congrArg List.length h
  simp only [List.length_drop, List.length_append] at hlen
  have h1 := reads_len t hfit off _ h
  have d1 := drop_prefix h
  have h2 := reads_prefix t _ _ hwf hfit _ _ d1
  have d2 := drop_prefix d1
  have h3 := reads_params hw e t hwf hew _ _ d2
  have d3 := drop_prefix d2
  have d4 := drop_prefix d3
  have hpos : 1 ≤ (paramBytes t).length := by unfold paramBytes; simp only [List.length_append, leBytes_length]; omega
  change lineParams d e t.version t.params.addressSize _ = .ok (headerOf t, _ + (paramBytes t).length) at h3
  refine ⟨off + (lenBytes t).length + (preBytes t).length + (paramBytes t).length + t.pad.length, ?_, d4, by omega⟩
  have er : t.rest.length = (paramBytes t).length + t.pad.length := by rw [rest_eq, List.length_append]
  have hbl : t.body.length = (preBytes t).length + ((paramBytes t).length + (t.pad.length + t.progBytes.length)) := by
    rw [body_eq]; simp only [List.length_append]
  have ebv : (BitVec.ofNat 64 t.rest.length).toNat = t.rest.length := by
    rw [BitVec.toNat_ofNat, Nat.mod_eq_of_lt]
    have : W64 = 2 ^ 64 := rfl
    omega
  unfold lineHeader
  rw [Parse.bind_ok h1, Parse.bind_ok (show getOffset _ = .ok (_, _) from rfl)]
  rw [Parse.bind_ok h2, Parse.bind_ok (show getOffset _ = .ok (_, _) from rfl)]
  rw [Parse.bind_ok h3, Parse.bind_ok (show getOffset _ = .ok (_, _) from rfl)]
  dsimp only
  rw [ebv]
  rw [show ((t.rest.length + (off + (lenBytes t).length + (preBytes t).length)) % W64 + W64 -
    (off + (lenBytes t).length + (preBytes t).length + (paramBytes t).length)) % W64 = t.pad.length by
      rw [Nat.mod_eq_of_lt (show t.rest.length + (off + (lenBytes t).length + (preBytes t).length) < W64 by omega)]
      rw [show t.rest.length + (off + (lenBytes t).length + (preBytes t).length) + W64 -
        (off + (lenBytes t).length + (preBytes t).length + (paramBytes t).length) = t.pad.length + W64 by omega, Nat.add_mod_right,
        Nat.mod_eq_of_lt (by omega)]]
  rw [Parse.bind_ok (show skip _ _ = .ok ((), _) from rfl)]
  rw [Nat.mod_eq_of_lt (by omega), Nat.mod_eq_of_lt (by omega)]
  rw [show off + (lenBytes t).length + t.body.length = off + (lenBytes t).length + (preBytes t).length + (paramBytes t).length + t.pad.length +
    t.progBytes.length by omega]
  rfl

end
end Pstack.Props
