import Verif.Proof.Contains
import Verif.Props.AttrValue
/-
Property theorems C26: the addresses of an entry (Spec/Ranges.lean), after any history.
-/
namespace Pstack.Props
open Pstack.Reader Pstack.Spec Pstack.Dwarf Pstack.Die

section
variable {d : Sections} {xs : List DieUnit} (hok : InfoOk d xs) (hrefs : RefsOk xs) {c : IClient} (hc : IHistory d xs c)
include hok hrefs hc

/-- C26. An entry with a low and a high address contains the addresses from the low one up to, and not with, the high one. -/
theorem C26_bounds (hfit : SectionsFit d) {y : DIE} (hy : c.Holds d y) : ∃ uo x o e, IsEntry d xs y uo x o e ∧ ∀ lo hi, EntryBounds d x e lo hi →
    ∀ (addr : BitVec 64) fuel, 1 ≤ fuel → ∃ r s', containsAddress d fuel y addr c.st = .ok (r, s') ∧
      (r = .yes ↔ lo ≤ addr.toNat ∧ addr.toNat < hi) ∧ (r = .no ↔ ¬(lo ≤ addr.toNat ∧ addr.toNat < hi)) := by
  have hg := igood_history hok hrefs hc
  obtain ⟨uo, x, o, e, h⟩ := holds_good hok hg hy
  refine ⟨uo, x, o, e, h.isEntry, ?_⟩
  intro lo hi hb addr fuel h1
  obtain ⟨s', k⟩ := contains_bounds hok hfit hg.st h hb addr h1
  refine ⟨_, s', k, ?_⟩
  by_cases hin : lo ≤ addr.toNat ∧ addr.toNat < hi
  · rw [if_pos hin]; simp; exact hin
  · rw [if_neg hin]; simp; omega

/-- C26. The ranges of an entry are those of its list. -/
theorem C26_ranges (hfit : SectionsFit d) {y : DIE} (hy : c.Holds d y) : ∃ uo x o e, IsEntry d xs y uo x o e ∧ ∀ L, EntryRanges d xs uo x o e L →
    ∃ n, ∀ fuel, n ≤ fuel → ∃ s', dieRanges d fuel y c.st = .ok (some L, s') := by
  have hg := igood_history hok hrefs hc
  have hr := ranges_history hok hfit hrefs hc
  obtain ⟨uo, x, o, e, h⟩ := holds_good hok hg hy
  refine ⟨uo, x, o, e, h.isEntry, ?_⟩
  intro L hL
  have hL' := hL
  obtain ⟨i, n, base, f1, f2, _, f3, f4, hcase⟩ := hL
  -- the low address is found, or not there
  have hlow : ∃ n, ∀ fuel, n ≤ fuel → ∃ low s1 bw s2, getAttr d fuel y 0x11 false c.st = .ok (low, s1) ∧ Kept d xs c.st s1 ∧ numOr0 d fuel low s1 = .ok (bw, s2) := by
    cases hf : e.find 0x11 with
    | some j =>
      refine ⟨1, fun fuel h1 => ?_⟩
      have he : e = x.tree.root := by
        rcases hcase with ⟨_, he⟩ | hi
        · exact he
        · rw [inherits_none hi] at hf; cases hf
      subst he
      rcases f3 with ⟨k, q1, ⟨a, v, q2, q3, q4⟩, _⟩ | ⟨hn, _⟩
      · rw [hf] at q1; injection q1 with q1; subst q1
        obtain ⟨w, s2, k1, _⟩ := toNum_spec hok hfit hg.st h q2 q3 q4 h1
        exact ⟨_, _, w, s2, getAttr_own hok hg.st h hf h1 false, Kept.refl hg.st, k1⟩
      · rw [hn.1] at hf; cases hf
    | none =>
      have hn : Inherits xs 0x11 uo o e none := by
        rcases hcase with ⟨_, he⟩ | hi
        · subst he
          rcases f3 with ⟨k, f1, _⟩ | ⟨hn, _⟩
          · rw [hf] at f1; cases f1
          · exact .nowhere hn.1 hn.2.1 hn.2.2
        · exact hi
      obtain ⟨m, hm⟩ := getAttr_inherits hok (d := d) (by decide) hn
      refine ⟨m, fun fuel h1 => ?_⟩
      obtain ⟨a, s1, g1, g2, g3, g4⟩ := hm fuel y x c.st h1 hg.st h
      have : a = none := g4
      subst this
      exact ⟨none, s1, 0, s1, g1, ⟨g2, g3⟩, rfl⟩
  obtain ⟨m, hm⟩ := hlow
  refine ⟨m + 1, fun fuel h1 => ?_⟩
  obtain ⟨low, s1, bw, s2, g1, g2, g3⟩ := hm fuel (by omega)
  have hb := base_arg hok hfit g2.1 (h.ext g2.2) (low_inherited hok hfit hrefs hg.st h (by omega) g1) (by omega) g3
  have hlg : GoodOpt d xs s1 low := (getAttr_keep hok hrefs hg.st ⟨uo, x, o, e, h⟩ g1).2
  have k3 := numOr0_keep hok hrefs g2.1 hlg g3
  obtain ⟨s', k⟩ := unitRanges_spec hok hfit k3.1 ((hr.of_eq g2.2.2).of_eq k3.2.2) ((h.ext g2.2).ext k3.2) hL' hb (fuel := fuel) (by omega)
  refine ⟨s', ?_⟩
  unfold dieRanges
  rw [getAttr_own hok hg.st h f1 (by omega) false, Res.bind_ok]
  simp only
  rw [g1, Res.bind_ok]
  simp only
  rw [g3, Res.bind_ok]
  simp only
  rw [k, Res.bind_ok]

/-- C26. An entry with ranges contains the addresses of its ranges. Missing: the ends of ranges, which are taken to be in them (`C26_not_end`). -/
theorem C26_contains_partial (hfit : SectionsFit d) {y : DIE} (hy : c.Holds d y) : ∃ uo x o e, IsEntry d xs y uo x o e ∧ ∀ L, EntryRanges d xs uo x o e L →
    (e.find 0x11 = none ∨ e.find 0x12 = none) → ∀ (addr : BitVec 64) fuel, 1 ≤ fuel → (∀ r ∈ L, addr.toNat ≠ r.2) → ∃ a s', containsAddress d fuel y addr c.st = .ok (a, s') ∧
      (a = .yes ↔ ∃ r ∈ L, r.1 ≤ addr.toNat ∧ addr.toNat < r.2) ∧ (a = .no ↔ ¬∃ r ∈ L, r.1 ≤ addr.toNat ∧ addr.toNat < r.2) := by
  obtain ⟨uo, x, o, e, h⟩ := holds_good hok (igood_history hok hrefs hc) hy
  refine ⟨uo, x, o, e, h.isEntry, ?_⟩
  intro L hL hno addr fuel h1 hne
  obtain ⟨s', k⟩ := contains_list hok hfit hrefs (igood_history hok hrefs hc).st (ranges_history hok hfit hrefs hc) h hL hno addr h1
  refine ⟨_, s', k, ?_⟩
  have key : L.any (fun r => decide (r.1 ≤ addr.toNat ∧ addr.toNat ≤ r.2)) = true ↔ ∃ r ∈ L, r.1 ≤ addr.toNat ∧ addr.toNat < r.2 := by
    rw [List.any_eq_true]
    constructor
    · rintro ⟨r, m, hr⟩
      have := of_decide_eq_true hr
      have := hne r m
      exact ⟨r, m, by omega, by omega⟩
    · rintro ⟨r, m, hr1, hr2⟩
      exact ⟨r, m, decide_eq_true ⟨hr1, by omega⟩⟩
  rw [← key]
  by_cases hin : L.any (fun r => decide (r.1 ≤ addr.toNat ∧ addr.toNat ≤ r.2)) = true
  · rw [if_pos hin]; exact ⟨⟨fun _ => hin, fun _ => rfl⟩, ⟨nofun, fun h => absurd hin h⟩⟩
  · rw [if_neg hin]; exact ⟨⟨nofun, fun h => absurd h hin⟩, ⟨fun _ => hin, fun _ => rfl⟩⟩

/-- C26 does not hold for the address after a range: it is reported to be in the entry, whatever the other ranges are. -/
theorem C26_not_end (hfit : SectionsFit d) {y : DIE} (hy : c.Holds d y) : ∃ uo x o e, IsEntry d xs y uo x o e ∧ ∀ L, EntryRanges d xs uo x o e L →
    (e.find 0x11 = none ∨ e.find 0x12 = none) → ∀ (addr : BitVec 64) fuel, 1 ≤ fuel → (∃ r ∈ L, r.1 ≤ r.2 ∧ addr.toNat = r.2) → ∃ s', containsAddress d fuel y addr c.st = .ok (.yes, s') := by
  obtain ⟨uo, x, o, e, h⟩ := holds_good hok (igood_history hok hrefs hc) hy
  refine ⟨uo, x, o, e, h.isEntry, ?_⟩
  rintro L hL hno addr fuel h1 ⟨r, m, hle, ha⟩
  obtain ⟨s', k⟩ := contains_list hok hfit hrefs (igood_history hok hrefs hc).st (ranges_history hok hfit hrefs hc) h hL hno addr h1
  refine ⟨s', ?_⟩
  rw [k, if_pos]
  exact List.any_eq_true.2 ⟨r, m, decide_eq_true ⟨by omega, by omega⟩⟩

/-- C26. An entry with neither a low and a high address nor ranges: nothing is known. -/
theorem C26_unknown {y : DIE} (hy : c.Holds d y) : ∃ uo x o e, IsEntry d xs y uo x o e ∧ ((e.find 0x11 = none ∨ e.find 0x12 = none) → Inherits xs 0x55 uo o e none →
    ∃ n, ∀ (addr : BitVec 64) fuel, n ≤ fuel → ∃ s', containsAddress d fuel y addr c.st = .ok (.unknown, s')) := by
  have hg := igood_history hok hrefs hc
  obtain ⟨uo, x, o, e, h⟩ := holds_good hok hg hy
  refine ⟨uo, x, o, e, h.isEntry, ?_⟩
  intro hno hi
  obtain ⟨n, hn⟩ := contains_unknown hok (d := d) hno hi
  exact ⟨n, fun addr fuel h1 => hn addr fuel y x c.st h1 hg.st h⟩

/-- C26: a list of ranges that has a DW_RLE_startx_endx entry is not read. Here it is the first. -/
theorem C26_not_startx_endx (hfit : SectionsFit d) {y : DIE} (hy : c.Holds d y) : ∃ uo x o e, IsEntry d xs y uo x o e ∧ ∀ i n rest, 5 ≤ x.version → e.find 0x55 = some i →
    AttrNumber d x e i n → d.rnglists.drop n = 2#8 :: rest → ∀ base fuel, 1 ≤ fuel → readRanges d fuel y base c.st = .exc := by
  have hg := igood_history hok hrefs hc
  obtain ⟨uo, x, o, e, h⟩ := holds_good hok hg hy
  refine ⟨uo, x, o, e, h.isEntry, ?_⟩
  rintro i n rest hv hf ⟨a, v, f2, f3, f4⟩ hd base fuel h1
  obtain ⟨w, s1, k1, k2, k3, _⟩ := toNum_spec hok hfit hg.st h f2 f3 f4 h1
  obtain ⟨u', t, hop⟩ := opened hok h.entry.1
  have hu : u' = y.unit := by have := hop.isOpen; rw [h.isOpen] at this; injection this with this; exact this.symm
  subst hu
  have hv' : y.unit.version = x.version := hop.sizes.version
  unfold readRanges
  rw [getAttr_own hok hg.st h hf h1 false, Res.bind_ok]
  simp only
  rw [k1, Res.bind_ok]
  simp only
  rw [if_neg (by omega), k2, ranges5, getu8_prefix d.rnglists rest 2#8 n hd, Res.bind_ok]
  rfl

end

/-! ### A unit with all of these -/

def rangeRoot : DieDecl := ⟨1, 0x11, true, [⟨0x11, 0x01, 0⟩, ⟨0x73, 0x17, 0⟩, ⟨0x74, 0x17, 0⟩]⟩
def rangeFunc : DieDecl := ⟨2, 0x2e, false, [⟨0x55, 0x23, 0⟩]⟩
def rangeFlat : DieDecl := ⟨3, 0x2e, false, [⟨0x11, 0x1b, 0⟩, ⟨0x12, 0x0b, 0⟩]⟩
def rangeUnit : DieUnit := ⟨false, 5, 1, 8, [], 0, [rangeRoot, rangeFunc, rangeFlat],
  ⟨⟨rangeRoot, [.num 0x1000, .num 8, .num 12]⟩, some (.leaf ⟨rangeFunc, [.num 0]⟩ (.leaf ⟨rangeFlat, [.num 1, .num 16]⟩ .done))⟩, []⟩

/-- From the base address on, two ranges; one is relative to the second address of the table. -/
def rangeList : List Rle := [.pair 0x10 0x20, .baseIndex 1, .pair 0 5]

def rangeSections : Sections :=
  { info := encodeUnits [rangeUnit]
    abbr := encodeDecls rangeUnit.decls
    str := []
    lineStr := []
    ranges := []
    rnglists := leBytes 4 30 ++ (leBytes 2 5 ++ (leBytes 1 8 ++ (leBytes 1 0 ++ (leBytes 4 1 ++ (leBytes 4 4 ++ encodeRles 8 rangeList)))))
    strOffsets := none
    addr := some (leBytes 4 20 ++ (leBytes 2 5 ++ (8#8 :: 0#8 :: (leBytes 8 0x1000 ++ leBytes 8 0x2345)))) }

theorem range_entries {uo : Nat} {x : DieUnit} {o : Nat} {e : DieEntry} : EntryIn [rangeUnit] uo x o e ↔
    uo = 0 ∧ x = rangeUnit ∧ (o, e) ∈ [(12, ⟨rangeRoot, [.num 0x1000, .num 8, .num 12]⟩), (29, (⟨rangeFunc, [.num 0]⟩ : DieEntry)), (31, ⟨rangeFlat, [.num 1, .num 16]⟩)] := by
  have hp : (rangeUnit.placed 0).all = [(12, ⟨rangeRoot, [.num 0x1000, .num 8, .num 12]⟩), (29, (⟨rangeFunc, [.num 0]⟩ : DieEntry)), (31, ⟨rangeFlat, [.num 1, .num 16]⟩)] := by
    simp [rangeUnit, rangeRoot, rangeFunc, rangeFlat, DieUnit.sizes, DieUnit.rootPos, DieUnit.lengthField, DieTree.all, DieTree.firsts, Forest.firsts,
      DieUnit.header, DieUnit.offSize, DieUnit.placed, DieTree.place, Forest.place, DieEntry.encode, encodeVals, formKind,
      FormKind.encode, encodeU_small, leBytes_length]
  unfold EntryIn
  rw [placeUnits, placeUnits]
  constructor
  · rintro ⟨h1, h2⟩
    simp only [List.mem_cons, List.not_mem_nil, or_false, Prod.mk.injEq] at h1
    obtain ⟨rfl, rfl⟩ := h1
    rw [hp] at h2
    exact ⟨rfl, rfl, h2⟩
  · rintro ⟨rfl, rfl, h⟩
    exact ⟨by simp, by rw [hp]; exact h⟩

theorem range_rnglists : rangeSections.rnglists = leBytes 4 30 ++ (leBytes 2 5 ++ (leBytes 1 8 ++ (leBytes 1 0 ++ (leBytes 4 1 ++ (leBytes 4 4 ++ [4, 0x10, 0x20, 1, 1, 4, 0, 5, 0]))))) := by
  simp [rangeSections, encodeRles, rangeList, Rle.encode, encodeU_small]

theorem range_ok : InfoOk rangeSections [rangeUnit] ∧ RefsOk [rangeUnit] ∧ SectionsFit rangeSections := by
  refine ⟨⟨rfl, ?_, ?_, ?_, ?_⟩, ?_, ?_⟩
  · intro x hx
    simp only [List.mem_cons, List.not_mem_nil, or_false] at hx
    subst hx
    refine ⟨⟨by decide, fun _ => .inl (by decide), by decide, (fun h => by cases h), by decide, ?_, by decide, ?_⟩, ?_, by decide, (fun h => by cases h)⟩
    · intro a ha
      simp only [rangeUnit, List.mem_cons, List.not_mem_nil, or_false] at ha
      rcases ha with rfl | rfl | rfl <;> refine ⟨by decide, by decide, ?_⟩ <;> intro b hb <;>
        simp only [rangeRoot, rangeFunc, rangeFlat, List.mem_cons, List.not_mem_nil, or_false] at hb
      · rcases hb with rfl | rfl | rfl <;> exact ⟨by decide, by decide, by decide⟩
      · subst hb; exact ⟨by decide, by decide, by decide⟩
      · rcases hb with rfl | rfl <;> exact ⟨by decide, by decide, by decide⟩
    · simp [rangeUnit, rangeRoot, rangeFunc, rangeFlat, DieUnit.sizes, DieUnit.rootPos, DieUnit.lengthField,
        DieUnit.header, DieUnit.offSize, DieTree.WF, Forest.WF, ValsFit, AttrFits, DieTree.encode, Forest.encode, DieEntry.encode, encodeVals, formKind,
        FormKind.encode, FormKind.Fits, IsLocalRef, encodeU_small, leBytes_length]
    · simp [rangeUnit, rangeRoot, rangeFunc, rangeFlat, DieUnit.body, DieUnit.sizes, DieTree.encode, Forest.encode,
        DieUnit.header, DieUnit.offSize, DieEntry.encode, encodeVals, formKind, FormKind.encode, encodeU_small, leBytes_length]
  · intro x hx
    simp only [List.mem_cons, List.not_mem_nil, or_false] at hx
    subst hx; exact ⟨[], by simp [rangeUnit, rangeSections]⟩
  · simp [rangeSections, encodeUnits, rangeUnit, rangeRoot, rangeFunc, rangeFlat, DieUnit.encode, DieUnit.body, DieUnit.sizes, DieUnit.lengthField, DieTree.encode, Forest.encode,
      DieUnit.header, DieUnit.offSize, DieEntry.encode, encodeVals, formKind, FormKind.encode, encodeU_small, leBytes_length]
  · simp [rangeSections, rangeUnit, encodeDecls, DieDecl.encode, AttrDecl.encode, rangeRoot, rangeFunc, rangeFlat, encodeU_small]
  · intro uo x o e he i a v o' ha hv hn hr
    exfalso
    obtain ⟨n, rfl, hr⟩ := hr
    obtain ⟨rfl, rfl, h⟩ := range_entries.1 he
    have hf : IsLocalRef a.form ∨ a.form = 0x10 := by
      rcases hr with ⟨h, _⟩ | ⟨h, _⟩
      · exact .inl h
      · exact .inr h
    have hm := List.mem_of_getElem? ha
    simp only [List.mem_cons, List.not_mem_nil, or_false, Prod.mk.injEq] at h
    rcases h with ⟨rfl, rfl⟩ | ⟨rfl, rfl⟩ | ⟨rfl, rfl⟩ <;> simp only [rangeRoot, rangeFunc, rangeFlat, List.mem_cons, List.not_mem_nil, or_false] at hm
    · rcases hm with rfl | rfl | rfl <;> simp [IsLocalRef] at hf
    · subst hm; simp [IsLocalRef] at hf
    · rcases hm with rfl | rfl <;> simp [IsLocalRef] at hf
  · refine ⟨by decide, by decide, by decide, ?_, ?_, ?_⟩
    · rw [range_rnglists]; decide
    · intro s hs; cases hs
    · intro s hs; simp only [rangeSections] at hs; injection hs with hs; subst hs; decide

theorem range_address : AddressAt rangeSections rangeUnit 1 0x2345 :=
  ⟨_, 8, 0#8, leBytes 8 0x1000 ++ leBytes 8 0x2345, rfl, ⟨1, _, by decide, rfl, rfl, rfl, by decide⟩, by decide, by decide, ⟨[0x1000, 0x2345], [], by decide, rfl, by decide⟩⟩

/-- The first function has two ranges, the second a low and a high address. -/
theorem C26_example : EntryRanges rangeSections [rangeUnit] 0 rangeUnit 29 ⟨rangeFunc, [.num 0]⟩ [(0x1010, 0x1020), (0x2345, 0x234a)] ∧
    EntryBounds rangeSections rangeUnit ⟨rangeFlat, [.num 1, .num 16]⟩ 0x2345 0x2355 := by
  constructor
  · refine ⟨0, 16, 0x1000, by decide, ⟨_, _, rfl, rfl, ?_⟩, by decide, .inl ⟨0, by decide, ⟨_, _, rfl, rfl, .const (by decide)⟩, by decide⟩, .inr ⟨by decide, rangeList, [], ?_, ?_⟩,
      .inr (.nowhere (by decide) (by decide) (by decide))⟩
    · exact .list (b := 12) (n := 4) rfl ⟨2, _, by decide, rfl, rfl, rfl, by decide⟩ ⟨30, _, by decide, rfl⟩ ⟨[4], encodeRles 8 rangeList, by rfl, rfl, by decide⟩ (by decide)
    · rw [List.append_nil]; rfl
    · exact .pair (a := 0x10) (b := 0x20) (base := 0x1000) (by decide) (by decide) (.baseIndex (by decide) range_address (.pair (a := 0) (b := 5) (base := 0x2345) (by decide) (by decide) .done))
  · exact ⟨0, 1, _, _, 16, by decide, rfl, .inr rfl, ⟨_, _, rfl, rfl, .address rfl range_address⟩, by decide, rfl, ⟨_, _, rfl, rfl, .const (by decide)⟩, by decide, by decide, .inr ⟨⟨rfl, by decide⟩, rfl⟩⟩

/-- The theorems apply to it: 0x1015 is in the first function, and so is said to be 0x1020, which is not. -/
theorem C26_example_applies : ∃ z s, infoOffsetToDIE rangeSections 29 IState.empty = .ok (z, s) ∧
    (∃ s', containsAddress rangeSections 1 z 0x1015 s = .ok (.yes, s')) ∧ (∃ s', containsAddress rangeSections 1 z 0x1020 s = .ok (.yes, s')) ∧
    (∃ s', containsAddress rangeSections 1 z 0x1021 s = .ok (.no, s')) := by
  obtain ⟨z, s, h1, h2, h3, h4⟩ := C56_find range_ok.1 range_ok.2.1 .start (range_entries.2 ⟨rfl, rfl, List.mem_cons_of_mem _ List.mem_cons_self⟩ : EntryIn _ 0 rangeUnit 29 _)
  refine ⟨z, s, h1, ?_⟩
  obtain ⟨uo, x, o, e, g1, g2⟩ := C26_contains_partial range_ok.1 range_ok.2.1 h3 range_ok.2.2 h4
  obtain ⟨uo', x', o', e', g1', g2'⟩ := C26_not_end range_ok.1 range_ok.2.1 h3 range_ok.2.2 h4
  have ho : o = 29 := by rw [← g1.2.1, h2.2.1]
  have ho' : o' = 29 := by rw [← g1'.2.1, h2.2.1]
  subst ho; subst ho'
  obtain ⟨rfl, rfl, he⟩ := range_entries.1 g1.2.2
  obtain ⟨rfl, rfl, he'⟩ := range_entries.1 g1'.2.2
  simp at he he'
  subst he; subst he'
  refine ⟨?_, g2' _ C26_example.1 (.inl (by decide)) _ 1 (by decide) ⟨_, List.mem_cons_self, by decide, rfl⟩, ?_⟩
  · obtain ⟨a, s', k1, k2, _⟩ := g2 _ C26_example.1 (.inl (by decide)) 0x1015 1 (by decide) (by decide)
    rw [k2.2 ⟨_, List.mem_cons_self, by decide, by decide⟩] at k1
    exact ⟨s', k1⟩
  · obtain ⟨a, s', k1, _, k2⟩ := g2 _ C26_example.1 (.inl (by decide)) 0x1021 1 (by decide) (by decide)
    rw [k2.2 (by decide)] at k1
    exact ⟨s', k1⟩

end Pstack.Props
