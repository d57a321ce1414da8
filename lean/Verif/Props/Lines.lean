import Verif.Proof.LineHdr
/-
C27, C28: line tables.
-/
namespace Pstack.Props
open Pstack.Reader Pstack.Spec Pstack.Dwarf Pstack.Lines

theorem fileTable_file (t : LineTables) (n : Nat) (f : SourceFile) (h : t.file n = some f) :
    (fileTable t)[n]? = some ⟨f.name, BitVec.ofNat 32 f.dir⟩ := by
  cases t with
  | v4 a b =>
    cases n with
    | zero => cases h
    | succ n =>
      have h' : (LineTables.v4 a b).sourceFiles[n]? = some f := h
      show ((⟨unknown, 0#32⟩ : FileEnt) :: (LineTables.v4 a b).sourceFiles.map _)[n + 1]? = _
      rw [List.getElem?_cons_succ, List.getElem?_map, h']; rfl
  | v5 seg df ds ff fs =>
    have h' : (LineTables.v5 seg df ds ff fs).sourceFiles[n]? = some f := by cases n <;> exact h
    show ((LineTables.v5 seg df ds ff fs).sourceFiles.map _)[n]? = _
    rw [List.getElem?_map, h']; rfl

theorem fileTable_length (t : LineTables) : (fileTable t).length = t.fileLimit := by
  cases t with
  | v4 a b => simp [fileTable, LineTables.sourceFiles, LineTables.fileLimit]
  | v5 seg df ds ff fs => simp [fileTable, LineTables.sourceFiles, LineTables.fileLimit]

theorem Each.nil_right {α β : Type} {R : α → β → Prop} {as : List α} (h : Each R as []) : as = [] := by cases h; rfl

theorem build_table (d : List Byte) (hw : d.length < W64) (e : Env) (t : LineTable) (hwf : t.WF e.lineStrings e.strings)
    (hew : 5 ≤ t.version → e.dwarfLen = t.width) (hfit : LineTable.Fits t) (off : Nat) (rest : List Byte) (hd : d.drop off = t.encode ++ rest)
    (hone : t.params.maxOps = 1) (hprog : ∀ o ∈ t.prog, o.WF t.params t.tables.fileLimit ∧ Supported t.params o)
    (hfiles : t.prog = [] ∨ 1 < t.tables.fileLimit) :
    ∃ rows, build d e off = .ok (headerOf t, rows) ∧ Each RowMatches rows (lineRows t.params (LineRow.init t.params) t.prog) := by
  obtain ⟨p, e1, dp, hple⟩ := lineHeader_table hw e t hwf hew hfit off rest hd
  have efl : (headerOf t).files.length = t.tables.fileLimit := fileTable_length t.tables
  unfold build
  rw [e1, Res.bind_ok]
  dsimp only
  by_cases hemp : t.progBytes.length = 0
  · have hp0 : t.prog = [] := by
      cases hpp : t.prog with
      | nil => rfl
      | cons o ops =>
        have hne : (LineOp.encode t.params o).length ≠ 0 := by cases o <;> simp [LineOp.encode]
        rw [LineTable.progBytes, hpp, List.map_cons, List.flatten_cons, List.length_append] at hemp
        omega
    rw [if_pos (by omega), hp0]
    exact ⟨[], rfl, .nil⟩
  · have h1 : 1 < t.tables.fileLimit := by
      cases hfiles with
      | inl h => rw [LineTable.progBytes, h] at hemp; simp at hemp
      | inr h => exact h
    rw [if_neg (by omega)]
    obtain ⟨s, es, hs⟩ := init_matches (headerOf t) t.params (headerOf_is t hwf.params) (by rw [efl]; exact h1)
    rw [es, Res.bind_ok]
    have hcount : t.prog.length ≤ t.progBytes.length :=
      flatten_ge (LineOp.encode t.params) t.prog (fun o _ => by cases o <;> simp [LineOp.encode])
    have hlen := congrArg List.length dp
    rw [List.length_drop, List.length_append] at hlen
    obtain ⟨rows, er, hr⟩ := lineLoop_ops d rest hw (headerOf t) t.params hwf.params (headerOf_is t hwf.params) hone
      (by rw [efl]; exact h1) t.prog (d.length + 1) s (LineRow.init t.params) p (by rw [efl]; exact hprog) hs rfl (by omega) dp
    change lineLoop d (headerOf t) (p + t.progBytes.length) (d.length + 1) s p = _ at er
    rw [er, Res.bind_ok]
    exact ⟨rows, rfl, hr⟩

/-- **C27 (partial).** Reading a line table gives the directories and files it lists, under their numbers, and for its program exactly
the rows the DWARF state machine defines. Partial: the registers `prologue_end`, `epilogue_begin` and `discriminator` of the rows
are left out (they are wrong, see below); one operation per instruction; only instructions the reader knows; a fixed advance only
when instructions are measured in bytes; from version 5, the form of offsets is that of the unit. -/
theorem C27_rows_partial (d : List Byte) (hw : d.length < W64) (e : Env) (t : LineTable) (hwf : t.WF e.lineStrings e.strings)
    (hew : 5 ≤ t.version → e.dwarfLen = t.width) (hfit : LineTable.Fits t) (off : Nat) (rest : List Byte) (hd : d.drop off = t.encode ++ rest)
    (hone : t.params.maxOps = 1) (hprog : ∀ o ∈ t.prog, o.WF t.params t.tables.fileLimit ∧ Supported t.params o)
    (hfiles : t.prog = [] ∨ 1 < t.tables.fileLimit) :
    ∃ h rows, build d e off = .ok (h, rows) ∧ h.directories = t.tables.dirNames ∧ h.files.length = t.tables.fileLimit ∧
      (∀ n f, t.tables.file n = some f → h.files[n]? = some ⟨f.name, BitVec.ofNat 32 f.dir⟩) ∧
      Each RowMatches rows (lineRows t.params (LineRow.init t.params) t.prog) := by
  obtain ⟨rows, er, hr⟩ := build_table d hw e t hwf hew hfit off rest hd hone hprog hfiles
  exact ⟨headerOf t, rows, er, rfl, fileTable_length _, fun n f h => fileTable_file _ n f h, hr⟩

/-! ### Looking up an address -/

theorem each_get {α β : Type} {R : α → β → Prop} {as : List α} {bs : List β} (h : Each R as bs) :
    ∀ (i : Nat) b, bs[i]? = some b → ∃ a, as[i]? = some a ∧ R a b := by
  induction h with
  | nil => intro i b hb; simp at hb
  | cons h1 _ ih =>
    intro i b hb
    cases i with
    | zero => simp at hb; subst hb; exact ⟨_, rfl, h1⟩
    | succ i => exact ih i b (by simpa using hb)

/-- The row found: the first that covers the address. -/
theorem findRow_spec (addr : BitVec 64) (rows : List LineState) : ∀ (ss : List LineRow), Each RowMatches rows ss →
    (∀ s ∈ ss, s.address < 2 ^ 64) → (∀ s, ss.getLast? = some s → s.endSequence = true) →
    (∃ i r, rows[i]? = some r ∧ RowCovers ss addr.toNat i ∧ (∀ j, j < i → ¬ RowCovers ss addr.toNat j) ∧ findRow addr rows = .ok (some r)) ∨
    ((∀ i, ¬ RowCovers ss addr.toNat i) ∧ findRow addr rows = .ok none) := by
  induction rows with
  | nil =>
    intro ss h _ _
    cases h
    refine .inr ⟨fun i ⟨r, n, h1, _⟩ => by simp at h1, rfl⟩
  | cons r rows ih =>
    intro ss h ha hl
    cases h with
    | @cons _ s _ ss' hr hrest =>
    have haddr : ∀ x ∈ ss', x.address < 2 ^ 64 := fun x hx => ha x (by simp [hx])
    have hsh : ∀ i, RowCovers ss' addr.toNat i ↔ RowCovers (s :: ss') addr.toNat (i + 1) := by
      intro i; unfold RowCovers; simp only [List.getElem?_cons_succ]
    have glue : ¬ RowCovers (s :: ss') addr.toNat 0 → (ss' = [] ∨ ∀ x, ss'.getLast? = some x → x.endSequence = true) →
        findRow addr (r :: rows) = findRow addr rows →
        ((∃ i x, (r :: rows)[i]? = some x ∧ RowCovers (s :: ss') addr.toNat i ∧ (∀ j, j < i → ¬ RowCovers (s :: ss') addr.toNat j) ∧
          findRow addr (r :: rows) = .ok (some x)) ∨
        ((∀ i, ¬ RowCovers (s :: ss') addr.toNat i) ∧ findRow addr (r :: rows) = .ok none)) := by
      intro h0 hl' he
      rcases ih ss' hrest haddr (fun x hx => by
        cases hl' with
        | inl h => rw [h] at hx; simp at hx
        | inr h => exact h x hx) with ⟨i, x, g1, g2, g3, g4⟩ | ⟨g1, g2⟩
      · refine .inl ⟨i + 1, x, by simpa using g1, (hsh i).1 g2, ?_, by rw [he]; exact g4⟩
        intro j hj
        cases j with
        | zero => exact h0
        | succ j => exact fun hc => g3 j (by omega) ((hsh j).2 hc)
      · refine .inr ⟨?_, by rw [he]; exact g2⟩
        intro i
        cases i with
        | zero => exact h0
        | succ i => exact fun hc => g1 i ((hsh i).2 hc)
    have tail : ss' = [] ∨ ∀ x, ss'.getLast? = some x → x.endSequence = true := by
      cases ss' with
      | nil => exact .inl rfl
      | cons y ys => exact .inr (fun x hx => hl x (by rw [List.getLast?_cons_cons]; exact hx))
    cases hes : s.endSequence with
    | true =>
      refine glue ?_ tail (by rw [findRow.eq_def]; simp only; rw [if_pos (by rw [hr.endSequence]; exact hes)])
      rintro ⟨a, b, h1, _, h3, _⟩
      simp at h1; subst h1
      rw [hes] at h3; cases h3
    | false =>
      cases hrest with
      | nil =>
        have := hl s rfl
        rw [hes] at this; cases this
      | @cons nx ns rows'' ss'' hn hrest' =>
        have e1 : r.addr.toNat = s.address := by rw [hr.addr, BitVec.toNat_ofNat]; exact Nat.mod_eq_of_lt (ha s (by simp))
        have e2 : nx.addr.toNat = ns.address := by rw [hn.addr, BitVec.toNat_ofNat]; exact Nat.mod_eq_of_lt (ha ns (by simp))
        have hrf : ¬ (r.endSequence = true) := by rw [hr.endSequence, hes]; simp
        by_cases hc : r.addr.toNat ≤ addr.toNat ∧ nx.addr.toNat > addr.toNat
        · refine .inl ⟨0, r, rfl, ⟨s, ns, rfl, rfl, hes, by omega, by omega⟩, by omega, ?_⟩
          rw [findRow.eq_def]; simp only; rw [if_neg hrf, if_pos hc]
        · refine glue ?_ tail (by rw [findRow.eq_def]; simp only; rw [if_neg hrf, if_neg hc])
          rintro ⟨a, b, h1, h2, _, h4, h5⟩
          simp at h1 h2; subst h1; subst h2
          exact hc ⟨by omega, by omega⟩

/-- **C28 (partial).** For a table whose program ends its last sequence, the position reported for an address is the directory, file and line of the first row
that covers it, and nothing is reported if no row covers it. Partial: as C27, and for a table whose last sequence is ended (see
below), with addresses that do not wrap. -/
theorem C28_source_partial (d : List Byte) (hw : d.length < W64) (e : Env) (t : LineTable) (hwf : t.WF e.lineStrings e.strings)
    (hew : 5 ≤ t.version → e.dwarfLen = t.width) (hfit : LineTable.Fits t) (off : Nat) (rest : List Byte) (hd : d.drop off = t.encode ++ rest)
    (hone : t.params.maxOps = 1) (hprog : ∀ o ∈ t.prog, o.WF t.params t.tables.fileLimit ∧ Supported t.params o)
    (hfiles : t.prog = [] ∨ 1 < t.tables.fileLimit) (ss : List LineRow) (hss : ss = lineRows t.params (LineRow.init t.params) t.prog)
    (haddr : ∀ s ∈ ss, s.address < 2 ^ 64) (hlast : ∀ s, ss.getLast? = some s → s.endSequence = true) (addr : BitVec 64) :
    ∃ h rows, build d e off = .ok (h, rows) ∧
      ((∀ i, ¬ RowCovers ss addr.toNat i) → sourceOf h rows addr = .ok none) ∧
      ∀ i s f dir, RowCovers ss addr.toNat i → (∀ j, j < i → ¬ RowCovers ss addr.toNat j) → ss[i]? = some s →
        t.tables.file s.file = some f → f.dir < 2 ^ 32 → t.tables.dirNames[f.dir]? = some dir →
        sourceOf h rows addr = .ok (some (dir, f.name, BitVec.ofInt 32 s.line)) := by
  obtain ⟨rows, er, hr⟩ := build_table d hw e t hwf hew hfit off rest hd hone hprog hfiles
  rw [← hss] at hr
  refine ⟨headerOf t, rows, er, ?_, ?_⟩
  · intro hn
    rcases findRow_spec addr rows ss hr haddr hlast with ⟨i, r, _, hc, _⟩ | ⟨_, hf⟩
    · exact absurd hc (hn i)
    · unfold sourceOf; rw [hf, Res.bind_ok]; rfl
  · intro i s f dir hc hfirst hs hfile hfd hdir
    rcases findRow_spec addr rows ss hr haddr hlast with ⟨k, r, hk, hck, hkf, hf⟩ | ⟨hno, _⟩
    · have hik : i = k := by
        rcases Nat.lt_trichotomy i k with h | h | h
        · exact absurd hc (hkf i h)
        · exact h
        · exact absurd hck (hfirst k h)
      subst hik
      obtain ⟨r', hr', hm⟩ := each_get hr i s hs
      rw [hk] at hr'
      cases hr'
      unfold sourceOf
      rw [hf, Res.bind_ok]
      simp only
      have ef : (headerOf t).files[r.file]? = some ⟨f.name, BitVec.ofNat 32 f.dir⟩ := by
        rw [hm.file]; exact fileTable_file _ _ _ hfile
      have ed : (headerOf t).directories[(BitVec.ofNat 32 f.dir).toNat]? = some dir := by
        rw [BitVec.toNat_ofNat, Nat.mod_eq_of_lt hfd]; exact hdir
      rw [ef]
      simp only
      rw [ed, hm.line]
      rfl
    · exact absurd hc (hno i)

/-! ### An example -/

def mapRes {α β : Type} (f : α → β) (r : Res α) : Res β := r >>= fun a => .ok (f a)

def sampleLineParams : LineParams := ⟨1, 1, -5, 14, 13, true, 8⟩

/-- One directory "s", one file "a.c" in it; line 7 from 0x1000, line 9 from 0x1004 up to 0x1010. -/
def sampleLineTable : LineTable :=
  { version := 4, fmt64 := false, params := sampleLineParams
    opLens := [0#8, 1#8, 1#8, 1#8, 1#8, 0#8, 0#8, 0#8, 1#8, 0#8, 0#8, 1#8]
    tables := .v4 [[0x73#8]] [⟨⟨[0x61#8, 0x2e#8, 0x63#8], 1⟩, 0, 0⟩]
    pad := []
    prog := [.setAddress 0x1000, .advanceLine 6, .copy, .special (13 + 14 * 4 + 7), .advancePc 12, .endSequence] }

/-- The same as version 5, names in .debug_line_str, checksums, two files. -/
def sampleLineTable5 : LineTable :=
  { version := 5, fmt64 := false, params := sampleLineParams
    opLens := [0#8, 1#8, 1#8, 1#8, 1#8, 0#8, 0#8, 0#8, 1#8, 0#8, 0#8, 1#8]
    tables := .v5 0#8 [.pathLineStr] [⟨⟨[0x64#8], 0⟩, 0, []⟩, ⟨⟨[0x73#8], 0⟩, 2, []⟩]
      [.pathLineStr, .dirU, .md5] [⟨⟨[0x61#8], 1⟩, 4, List.replicate 16 9#8⟩, ⟨⟨[0x62#8], 0⟩, 6, List.replicate 16 7#8⟩]
    pad := []
    prog := [.setAddress 0x1000, .advanceLine 6, .copy, .special (13 + 14 * 4 + 7), .advancePc 12, .endSequence] }

def sampleLineStr : List Byte := [0x64#8, 0#8, 0x73#8, 0#8, 0x61#8, 0#8, 0x62#8, 0#8]

def sampleEnv : Env := ⟨4, sampleLineStr, [], fun _ => .exc⟩

theorem sampleLineTable_wf : sampleLineTable.WF sampleLineStr [] ∧ LineTable.Fits sampleLineTable ∧
    (∀ o ∈ sampleLineTable.prog, o.WF sampleLineTable.params sampleLineTable.tables.fileLimit ∧ Supported sampleLineTable.params o) := by
  refine ⟨⟨by decide, ⟨fun _ => by decide, fun _ => ⟨_, _, rfl⟩⟩, by decide, ?_, by decide, by decide, by decide, ?_⟩, by unfold LineTable.Fits; decide +kernel, ?_⟩
  · unfold LineParams.WF; decide
  · refine ⟨?_, ?_⟩
    · intro s hs; simp at hs; subst hs; exact ⟨by decide, by unfold GoodName; decide⟩
    · intro f hf; simp at hf; subst hf
      refine ⟨by decide, by unfold GoodName; decide, by decide, by decide, by decide⟩
  · intro o ho
    simp [sampleLineTable] at ho
    rcases ho with h | h | h | h | h | h <;> subst h <;> exact ⟨by first | trivial | (unfold LineOp.WF; decide), trivial⟩

theorem sampleLineTable5_wf : sampleLineTable5.WF sampleLineStr [] ∧ LineTable.Fits sampleLineTable5 ∧
    (∀ o ∈ sampleLineTable5.prog, o.WF sampleLineTable5.params sampleLineTable5.tables.fileLimit ∧ Supported sampleLineTable5.params o) := by
  refine ⟨⟨by decide, Iff.intro (fun ⟨_, _, h⟩ => by cases h) (fun h => absurd h (by decide)), by decide, ?_, by decide, by decide, by decide, ?_⟩,
    by unfold LineTable.Fits; decide +kernel, ?_⟩
  · unfold LineParams.WF; decide
  · refine ⟨by decide, by decide, by decide, by decide, by decide, by decide, by decide, ?_, ?_⟩
    · intro e he
      simp at he
      rcases he with h | h <;> subst h <;> refine ⟨by decide, by unfold GoodName; decide, ?_⟩ <;> intro f hf <;> simp at hf <;> subst hf <;>
        exact ⟨by decide, _, rfl⟩
    · intro e he
      simp at he
      rcases he with h | h <;> subst h <;> refine ⟨by unfold GoodName; decide, ?_⟩ <;> intro f hf <;> simp at hf <;>
        rcases hf with h | h | h <;> subst h <;> first | exact ⟨by decide, _, rfl⟩ | (unfold Field5.Fits; decide)
  · intro o ho
    simp [sampleLineTable5] at ho
    rcases ho with h | h | h | h | h | h <;> subst h <;> exact ⟨by first | trivial | (unfold LineOp.WF; decide), trivial⟩

/-- **C27, example.** The tables of the example are read, and their rows are these. -/
theorem C27_example :
    mapRes (fun r => r.2.map (fun r => (r.addr.toNat, r.line.toNat, r.file, r.endSequence))) (build sampleLineTable.encode sampleEnv 0) =
      .ok [(0x1000, 7, 1, false), (0x1004, 9, 1, false), (0x1010, 9, 1, true)] ∧
    mapRes (fun r => r.1.files) (build sampleLineTable5.encode sampleEnv 0) = .ok [⟨[0x61#8], 1#32⟩, ⟨[0x62#8], 0#32⟩] ∧
    (lineRows sampleLineParams (LineRow.init sampleLineParams) sampleLineTable5.prog).map (fun r => (r.address, r.line)) =
      [(0x1000, 7), (0x1004, 9), (0x1010, 9)] := by decide +kernel

/-- The theorem applies to them. -/
theorem C27_example_applies : ∃ h rows, build sampleLineTable5.encode sampleEnv 0 = .ok (h, rows) ∧ h.directories = [[0x64#8], [0x73#8]] ∧
    Each RowMatches rows (lineRows sampleLineParams (LineRow.init sampleLineParams) sampleLineTable5.prog) := by
  obtain ⟨h, rows, h1, h2, _, _, h3⟩ := C27_rows_partial sampleLineTable5.encode (by decide +kernel) sampleEnv sampleLineTable5
    sampleLineTable5_wf.1 (fun _ => rfl) sampleLineTable5_wf.2.1 0 [] (by simp) rfl sampleLineTable5_wf.2.2 (.inr (by decide))
  exact ⟨h, rows, h1, h2, h3⟩

/-- **C28, example.** 0x100f is line 9 of "s/a.c"; 0x1010 is past the end. -/
theorem C28_example :
    (build sampleLineTable.encode sampleEnv 0 >>= fun r => sourceOf r.1 r.2 0x100f#64) = .ok (some ([0x73#8], [0x61#8, 0x2e#8, 0x63#8], 9#32)) ∧
    (build sampleLineTable.encode sampleEnv 0 >>= fun r => sourceOf r.1 r.2 0x1010#64) = .ok none := by decide +kernel

/-- The theorem applies to it. -/
theorem C28_example_applies : ∃ h rows, build sampleLineTable.encode sampleEnv 0 = .ok (h, rows) ∧
    sourceOf h rows 0x1003#64 = .ok (some ([0x73#8], [0x61#8, 0x2e#8, 0x63#8], 7#32)) := by
  obtain ⟨h, rows, h1, _, h3⟩ := C28_source_partial sampleLineTable.encode (by decide +kernel) sampleEnv sampleLineTable
    sampleLineTable_wf.1 (fun _ => rfl) sampleLineTable_wf.2.1 0 [] (by simp) rfl sampleLineTable_wf.2.2 (.inr (by decide)) _ rfl
    (by decide +kernel) (by intro s hs; revert hs; simp [sampleLineTable, lineRows, LineOp.step]; intro h; rw [← h]) 0x1003#64
  refine ⟨h, rows, h1, ?_⟩
  exact h3 0 _ ⟨[0x61#8, 0x2e#8, 0x63#8], 1⟩ [0x73#8] ⟨_, _, rfl, rfl, rfl, by decide, by decide⟩ (by intro j hj; omega) rfl rfl (by decide) rfl

/-! ### What the full statements miss -/

/-- Rows built by a program from given bytes. -/
def rowsOf (t : LineTable) : Res (List LineState) := mapRes (·.2) (build t.encode sampleEnv 0)

/-- **C27 fails.** A mark set for one row (end of prologue, discriminator) is left on every later row of the sequence. -/
theorem C27_not_marks : ∃ prog, (∀ o ∈ prog, o.WF sampleLineParams 2 ∧ Supported sampleLineParams o) ∧
    mapRes (List.map (fun r => (r.prologueEnd, r.discriminator.toNat))) (rowsOf { sampleLineTable with prog := prog }) =
      .ok [(true, 3), (true, 3), (true, 3)] ∧
    (lineRows sampleLineParams (LineRow.init sampleLineParams) prog).map (fun r => (r.prologueEnd, r.discriminator)) =
      [(true, 3), (false, 0), (false, 0)] := by
  refine ⟨[.setPrologueEnd, .setDiscriminator 3, .copy, .copy, .endSequence], ?_, by decide +kernel, by decide +kernel⟩
  intro o ho
  simp at ho
  rcases ho with h | h | h | h <;> subst h <;> exact ⟨by first | trivial | (unfold LineOp.WF; decide), trivial⟩

/-- **C27 fails.** A fixed advance, which DWARF measures in bytes, is multiplied by the instruction length. -/
theorem C27_not_fixed_advance :
    mapRes (List.map (fun r => r.addr.toNat))
      (rowsOf { sampleLineTable with params := { sampleLineParams with minInsn := 4 }, prog := [.fixedAdvancePc 6, .endSequence] }) = .ok [24] ∧
    (lineRows { sampleLineParams with minInsn := 4 } (LineRow.init sampleLineParams) [.fixedAdvancePc 6, .endSequence]).map (·.address) = [6] := by
  decide +kernel

def sampleUnknown : LineTable :=
  { version := 4, fmt64 := false, params := { sampleLineParams with opcodeBase := 14 }
    opLens := sampleLineTable.opLens ++ [1#8], tables := sampleLineTable.tables, pad := []
    prog := [.copy, .unknownStandard 13 [5], .endSequence] }

/-- **C27 fails.** An instruction unknown to the reader, which DWARF says to skip, makes the whole table unavailable. -/
theorem C27_not_unknown :
    rowsOf { sampleLineTable with prog := [.copy, .unknownExtended 0x80 [1#8], .endSequence] } = .exc ∧
    rowsOf sampleUnknown = .exc := by
  decide +kernel

/-- **C27 fails.** For machines with several operations per instruction, the operation index is not kept: an advance of one operation
moves to the next instruction. -/
theorem C27_not_vliw :
    mapRes (List.map (fun r => r.addr.toNat))
      (rowsOf { sampleLineTable with params := { sampleLineParams with minInsn := 16, maxOps := 3 }, prog := [.advancePc 1, .copy, .endSequence] }) = .ok [16, 16] ∧
    (lineRows { sampleLineParams with minInsn := 16, maxOps := 3 } (LineRow.init sampleLineParams) [.advancePc 1, .copy, .endSequence]).map (·.address) = [0, 0] := by
  decide +kernel

/-- **C27 fails.** A version 5 directory with an empty name is left out, which renumbers those after it. -/
theorem C27_not_empty_directory :
    mapRes (fun r => r.1.directories) (build (LineTable.encode { sampleLineTable5 with
      tables := .v5 0#8 [.path] [⟨⟨[], 0⟩, 0, []⟩, ⟨⟨[0x73#8], 0⟩, 0, []⟩] [.path] [], prog := [] }) sampleEnv 0) = .ok [[0x73#8]] := by
  decide +kernel

/-- **C27 fails.** With fewer than two files, starting the program refers to a file that is not there. -/
theorem C27_not_one_file :
    rowsOf { sampleLineTable5 with tables := .v5 0#8 [.path] [⟨⟨[0x73#8], 0⟩, 0, []⟩] [.path] [⟨⟨[0x61#8], 0⟩, 0, []⟩], prog := [.setFile 0, .copy, .endSequence] } = .ub := by
  decide +kernel

/-- **C28 fails.** If the last sequence is not ended, the row after the last is looked at. -/
theorem C28_not_unended :
    (build (LineTable.encode { sampleLineTable with prog := [.setAddress 0x1000, .copy] }) sampleEnv 0 >>= fun r => sourceOf r.1 r.2 0x1000#64) = .ub := by
  decide +kernel

end Pstack.Props
