import Verif.Proof.AttrValue
import Verif.Props.Info
/-
Property theorems C55: the numbers and strings that attributes stand for (Spec/AttrValue.lean), after any history.
-/
namespace Pstack.Props
open Pstack.Reader Pstack.Spec Pstack.Dwarf Pstack.Die

section
variable {d : Sections} {xs : List DieUnit} (hok : InfoOk d xs) (hrefs : RefsOk xs) {c : IClient} (hc : IHistory d xs c)
include hok hrefs hc

/-- C55. An attribute that stands for a number is converted to that number. (Some forms have no conversion: `C55_not_forms`.) -/
theorem C55_number_partial (hfit : SectionsFit d) {y : DIE} (hy : c.Holds d y) : ∃ uo x o e, IsEntry d xs y uo x o e ∧ ∀ (i : Nat) b v n, e.decl.attrs[i]? = some b → e.vals[i]? = some v →
    HasNumber d x b v n → ∀ fuel, 1 ≤ fuel → ∃ w s', toNum d fuel (some ⟨y, i⟩) c.st = .ok (w, s') ∧ w.toNat = n := by
  have hg := igood_history hok hrefs hc
  obtain ⟨uo, x, o, e, h⟩ := holds_good hok hg hy
  refine ⟨uo, x, o, e, h.isEntry, ?_⟩
  intro i b v n hb hv hn fuel hf
  obtain ⟨w, s', g1, g2, _⟩ := toNum_spec hok hfit hg.st h hb hv hn hf
  exact ⟨w, s', g1, g2⟩

/-- C55. The same for signed numbers. -/
theorem C55_int_partial {y : DIE} (hy : c.Holds d y) : ∃ uo x o e, IsEntry d xs y uo x o e ∧ ∀ (i : Nat) b v z, e.decl.attrs[i]? = some b → e.vals[i]? = some v →
    HasInt x b v z → ∃ w, toInt (some ⟨y, i⟩) c.st = .ok w ∧ w.toInt = z := by
  have hg := igood_history hok hrefs hc
  obtain ⟨uo, x, o, e, h⟩ := holds_good hok hg hy
  exact ⟨uo, x, o, e, h.isEntry, fun i b v z hb hv hz => toInt_spec hok hg.st h hb hv hz⟩

/-- C55. An attribute that stands for a string is converted to that string. -/
theorem C55_string_partial (hfit : SectionsFit d) {y : DIE} (hy : c.Holds d y) : ∃ uo x o e, IsEntry d xs y uo x o e ∧ ∀ (i : Nat) b v str, e.decl.attrs[i]? = some b → e.vals[i]? = some v →
    HasString d x b v str → ∀ fuel, 1 ≤ fuel → ∃ s', toStr d fuel (some ⟨y, i⟩) c.st = .ok (str, s') := by
  have hg := igood_history hok hrefs hc
  obtain ⟨uo, x, o, e, h⟩ := holds_good hok hg hy
  refine ⟨uo, x, o, e, h.isEntry, ?_⟩
  intro i b v str hb hv hn fuel hf
  obtain ⟨s', g1, _⟩ := toStr_spec hok hfit hg.st h hb hv hn hf
  exact ⟨s', g1⟩

/-- C55: numbers in the forms DW_FORM_sdata, DW_FORM_GNU_addr_index and DW_FORM_loclistx are not converted to unsigned numbers. -/
theorem C55_not_forms {y : DIE} (hy : c.Holds d y) : ∃ uo x o e, IsEntry d xs y uo x o e ∧ ∀ (i : Nat) b, e.decl.attrs[i]? = some b →
    (b.form = 0x0d ∨ b.form = 0x1f01 ∨ b.form = 0x22) → ∀ fuel, toNum d fuel (some ⟨y, i⟩) c.st = .exc := by
  have hg := igood_history hok hrefs hc
  obtain ⟨uo, x, o, e, h⟩ := holds_good hok hg hy
  refine ⟨uo, x, o, e, h.isEntry, ?_⟩
  intro i b hb hf fuel
  obtain ⟨b', v, k, w, h1, _, _, _, h4, _⟩ := attr_shows hok hg.st h hb
  rw [hb] at h1; injection h1 with h1; subst h1
  unfold toNum toUint
  simp only
  rw [h4, Res.bind_ok]
  rcases hf with hf | hf | hf <;> rw [hf] <;> rfl

/-- C55: a string in the alternate file (DW_FORM_GNU_strp_alt) is replaced by a message. -/
theorem C55_not_alt {y : DIE} (hy : c.Holds d y) : ∃ uo x o e, IsEntry d xs y uo x o e ∧ ∀ (i : Nat) b, e.decl.attrs[i]? = some b →
    b.form = 0x1f21 → ∀ fuel, toStr d fuel (some ⟨y, i⟩) c.st = .ok ("(alt string table unavailable)".toList.map (fun ch => BitVec.ofNat 8 ch.toNat), c.st) := by
  have hg := igood_history hok hrefs hc
  obtain ⟨uo, x, o, e, h⟩ := holds_good hok hg hy
  refine ⟨uo, x, o, e, h.isEntry, ?_⟩
  intro i b hb hf fuel
  obtain ⟨b', v, k, w, h1, _, _, _, h4, _⟩ := attr_shows hok hg.st h hb
  rw [hb] at h1; injection h1 with h1; subst h1
  have ht : "(alt string table unavailable)".toList.map (fun ch => BitVec.ofNat 8 ch.toNat) = noAltString := by decide +kernel
  rw [ht]
  unfold toStr
  simp only
  rw [h4, Res.bind_ok, hf]
  rfl

end

/-! ### A unit with all of these -/

def valueRoot : DieDecl := ⟨1, 0x11, true, [⟨0x72, 0x17, 0⟩, ⟨0x73, 0x17, 0⟩, ⟨0x74, 0x17, 0⟩, ⟨0x03, 0x0e, 0⟩]⟩
def valueFunc : DieDecl := ⟨2, 0x2e, false, [⟨0x03, 0x25, 0⟩, ⟨0x11, 0x1b, 0⟩, ⟨0x55, 0x23, 0⟩, ⟨0x1c, 0x0d, 0⟩, ⟨0x25, 0x1f, 0⟩]⟩
def valueUnit : DieUnit := ⟨false, 5, 1, 8, [], 0, [valueRoot, valueFunc],
  ⟨⟨valueRoot, [.num 8, .num 8, .num 12, .num 1]⟩, some (.leaf ⟨valueFunc, [.num 1, .num 1, .num 0, .int (-3), .num 0]⟩ .done)⟩, []⟩

def valueSections : Sections :=
  { info := encodeUnits [valueUnit]
    abbr := encodeDecls valueUnit.decls
    str := [0#8, 0x61#8, 0x62#8, 0#8]
    lineStr := [0x63#8, 0#8]
    ranges := []
    rnglists := leBytes 4 30 ++ (leBytes 2 5 ++ (leBytes 1 8 ++ (leBytes 1 0 ++ (leBytes 4 1 ++ (leBytes 4 4 ++ [0#8])))))
    strOffsets := some (leBytes 4 12 ++ (leBytes 2 5 ++ (leBytes 2 0 ++ (leBytes 4 0 ++ leBytes 4 2))))
    addr := some (leBytes 4 20 ++ (leBytes 2 5 ++ (8#8 :: 0#8 :: (leBytes 8 0x1000 ++ leBytes 8 0x2345)))) }

theorem value_entries {uo : Nat} {x : DieUnit} {o : Nat} {e : DieEntry} : EntryIn [valueUnit] uo x o e ↔
    uo = 0 ∧ x = valueUnit ∧ (o, e) ∈ [(12, ⟨valueRoot, [.num 8, .num 8, .num 12, .num 1]⟩), (29, (⟨valueFunc, [.num 1, .num 1, .num 0, .int (-3), .num 0]⟩ : DieEntry))] := by
  have hp : (valueUnit.placed 0).all = [(12, ⟨valueRoot, [.num 8, .num 8, .num 12, .num 1]⟩), (29, (⟨valueFunc, [.num 1, .num 1, .num 0, .int (-3), .num 0]⟩ : DieEntry))] := by
    simp [valueUnit, valueRoot, valueFunc, DieUnit.sizes, DieUnit.rootPos, DieUnit.lengthField, DieTree.all, DieTree.firsts, Forest.firsts,
      DieUnit.header, DieUnit.offSize, DieUnit.placed, DieTree.place, Forest.place, DieEntry.encode, encodeVals, formKind,
      FormKind.encode, encodeU_small, leBytes_length]
  unfold EntryIn
  rw [placeUnits, placeUnits]
  constructor
  · rintro ⟨h1, h2⟩
    simp only [List.mem_cons, List.not_mem_nil, or_false, Prod.mk.injEq] at h1
    obtain ⟨rfl, rfl⟩ := h1
    rw [hp] at h2
    exact ⟨rfl, rfl, h2⟩
  · rintro ⟨rfl, rfl, h⟩
    exact ⟨by simp, by rw [hp]; exact h⟩

theorem value_ok : InfoOk valueSections [valueUnit] ∧ RefsOk [valueUnit] ∧ SectionsFit valueSections := by
  refine ⟨⟨rfl, ?_, ?_, ?_, ?_⟩, ?_, ?_⟩
  · intro x hx
    simp only [List.mem_cons, List.not_mem_nil, or_false] at hx
    subst hx
    refine ⟨⟨by decide, fun _ => .inl (by decide), by decide, (fun h => by cases h), by decide, ?_, by decide, ?_⟩, ?_, by decide, (fun h => by cases h)⟩
    · intro a ha
      simp only [valueUnit, List.mem_cons, List.not_mem_nil, or_false] at ha
      rcases ha with rfl | rfl <;> refine ⟨by decide, by decide, ?_⟩ <;> intro b hb <;>
        simp only [valueRoot, valueFunc, List.mem_cons, List.not_mem_nil, or_false] at hb
      · rcases hb with rfl | rfl | rfl | rfl <;> exact ⟨by decide, by decide, by decide⟩
      · rcases hb with rfl | rfl | rfl | rfl | rfl <;> exact ⟨by decide, by decide, by decide⟩
    · simp [valueUnit, valueRoot, valueFunc, DieUnit.sizes, DieUnit.rootPos, DieUnit.lengthField,
        DieUnit.header, DieUnit.offSize, DieTree.WF, Forest.WF, ValsFit, AttrFits, DieTree.encode, Forest.encode, DieEntry.encode, encodeVals, formKind,
        FormKind.encode, FormKind.Fits, IsLocalRef, encodeU_small, encodeS_small, leBytes_length, GoodName]
    · simp [valueUnit, valueRoot, valueFunc, DieUnit.body, DieUnit.sizes, DieTree.encode, Forest.encode,
        DieUnit.header, DieUnit.offSize, DieEntry.encode, encodeVals, formKind, FormKind.encode, encodeU_small, encodeS_small, leBytes_length]
  · intro x hx
    simp only [List.mem_cons, List.not_mem_nil, or_false] at hx
    subst hx; exact ⟨[], by simp [valueUnit, valueSections]⟩
  · simp [valueSections, encodeUnits, valueUnit, valueRoot, valueFunc, DieUnit.encode, DieUnit.body, DieUnit.sizes, DieUnit.lengthField, DieTree.encode, Forest.encode,
      DieUnit.header, DieUnit.offSize, DieEntry.encode, encodeVals, formKind, FormKind.encode, encodeU_small, encodeS_small, leBytes_length]
  · simp [valueSections, valueUnit, encodeDecls, DieDecl.encode, AttrDecl.encode, valueRoot, valueFunc, encodeU_small]
  · intro uo x o e he i a v o' ha hv hn hr
    exfalso
    obtain ⟨n, rfl, hr⟩ := hr
    obtain ⟨rfl, rfl, h⟩ := value_entries.1 he
    have hf : IsLocalRef a.form ∨ a.form = 0x10 := by
      rcases hr with ⟨h, _⟩ | ⟨h, _⟩
      · exact .inl h
      · exact .inr h
    have hm := List.mem_of_getElem? ha
    simp only [List.mem_cons, List.not_mem_nil, or_false, Prod.mk.injEq] at h
    rcases h with ⟨rfl, rfl⟩ | ⟨rfl, rfl⟩ <;> simp only [valueRoot, valueFunc, List.mem_cons, List.not_mem_nil, or_false] at hm
    · rcases hm with rfl | rfl | rfl | rfl <;> simp [IsLocalRef] at hf
    · rcases hm with rfl | rfl | rfl | rfl | rfl <;> simp [IsLocalRef] at hf
  · refine ⟨by decide, by decide, by decide, by decide, ?_, ?_⟩ <;> intro s hs <;> simp only [valueSections] at hs <;> injection hs with hs <;> subst hs <;> decide

/-- In the function's entry, the name is the second string of the table, `b`; the address is the second of the table, 0x2345; the first list of ranges
is at 16; the constant is -3; the producer is in .debug_line_str. -/
theorem C55_example : HasString valueSections valueUnit ⟨0x03, 0x25, 0⟩ (.num 1) [0x62#8] ∧ HasNumber valueSections valueUnit ⟨0x11, 0x1b, 0⟩ (.num 1) 0x2345 ∧
    HasNumber valueSections valueUnit ⟨0x55, 0x23, 0⟩ (.num 0) 16 ∧ HasInt valueUnit ⟨0x1c, 0x0d, 0⟩ (.int (-3)) (-3) ∧
    HasString valueSections valueUnit ⟨0x25, 0x1f, 0⟩ (.num 0) [0x63#8] := by
  refine ⟨?_, ?_, ?_, .signed (.inl rfl) (by decide) (by decide), .line rfl (by decide) ⟨by unfold GoodName; decide, [], rfl⟩⟩
  · exact .index (b := 8) (n := 2) rfl rfl ⟨0, _, by decide, rfl, rfl, rfl, by decide⟩ ⟨[0, 2], [], by decide, rfl, by decide⟩ ⟨by unfold GoodName; decide, [], rfl⟩
  · exact .address rfl ⟨_, 8, 0#8, leBytes 8 0x1000 ++ leBytes 8 0x2345, rfl, ⟨1, _, by decide, rfl, rfl, rfl, by decide⟩, by decide, by decide, ⟨[0x1000, 0x2345], [], by decide, rfl, by decide⟩⟩
  · exact .list (b := 12) (n := 4) rfl ⟨2, _, by decide, rfl, rfl, rfl, by decide⟩ ⟨30, _, by decide, rfl⟩ ⟨[4], [0#8], by decide, rfl, by decide⟩ (by decide)

/-- The theorems apply to it. -/
theorem C55_example_applies : ∃ z s, infoOffsetToDIE valueSections 29 IState.empty = .ok (z, s) ∧
    (∃ s', toStr valueSections 1 (some ⟨z, 0⟩) s = .ok ([0x62#8], s')) ∧ ∃ w s', toNum valueSections 1 (some ⟨z, 1⟩) s = .ok (w, s') ∧ w.toNat = 0x2345 := by
  obtain ⟨z, s, h1, h2, h3, h4⟩ := C56_find value_ok.1 value_ok.2.1 .start (value_entries.2 ⟨rfl, rfl, List.mem_cons_of_mem _ List.mem_cons_self⟩ : EntryIn _ 0 valueUnit 29 _)
  refine ⟨z, s, h1, ?_, ?_⟩
  · obtain ⟨uo, x, o, e, g1, g2⟩ := C55_string_partial value_ok.1 value_ok.2.1 h3 value_ok.2.2 h4
    have ho : o = 29 := by rw [← g1.2.1, h2.2.1]
    subst ho
    obtain ⟨rfl, rfl, he⟩ := value_entries.1 g1.2.2
    simp at he
    subst he
    exact g2 0 _ _ _ rfl rfl C55_example.1 1 (by decide)
  · obtain ⟨uo, x, o, e, g1, g2⟩ := C55_number_partial value_ok.1 value_ok.2.1 h3 value_ok.2.2 h4
    have ho : o = 29 := by rw [← g1.2.1, h2.2.1]
    subst ho
    obtain ⟨rfl, rfl, he⟩ := value_entries.1 g1.2.2
    simp at he
    subst he
    exact g2 1 _ _ _ rfl rfl C55_example.2.1 1 (by decide)

end Pstack.Props
