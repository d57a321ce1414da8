import Verif.Proof.Lookup
import Verif.Props.Ranges
/-
Property theorems C57: the unit of an address, after any history of lookups and of anything else (Spec/Lookup.lean).
-/
namespace Pstack.Props
open Pstack.Reader Pstack.Spec Pstack.Dwarf Pstack.Die

section
variable {d : Sections} {xs : List DieUnit} {sec : Option (List Byte)} {sets : List ArangeSet} (hok : InfoOk d xs) (hfit : SectionsFit d) (hrefs : RefsOk xs) (hsec : ArangesOk sec sets)
  (hroots : RootsOk d xs) (hag : RangesAgree d xs sets) (hne : xs ≠ []) {a : LClient} (hg : LGood d xs sets a)
include hok hfit hrefs hsec hroots hag hne hg

/-- A unit that has the address is found. -/
theorem lookup_found {uo lo hi : Nat} (hu : UnitHas d xs sets uo lo hi) {addr : BitVec 64} (h1 : lo ≤ addr.toNat) (h2 : addr.toNat < hi)
    (h3 : ¬ListRange d xs uo lo hi ∨ hi - lo ≤ addr.toNat) {fuel : Nat} (hf : 1 ≤ fuel) :
    ∃ u t s, lookupUnit d sec fuel addr a.t a.c.st = .ok (some u, t, s) ∧ u.offset = uo ∧ openUnit d.info d.abbr uo = .ok u := by
  obtain ⟨r, t, s, m, g1, _, _, g3, g4, g5, g6, _⟩ := lookup_spec hok hfit hrefs hsec hroots hag hne hg addr hf
  have same : ∀ {uo' lo' hi'}, UnitHas d xs sets uo' lo' hi' → addr.toNat < hi' → (lo' ≤ addr.toNat ∨ hi' ≤ hi) → uo' = uo ∧ lo' = lo ∧ hi' = hi := by
    intro uo' lo' hi' q1 q2 q3
    have b := hag.some _ _ _ q1
    rcases hag.apart _ _ _ _ _ _ q1 hu with q | q | q
    · exact q
    · omega
    · omega
  have key : findRange m addr = some uo := by
    rcases map_find hag g3 addr with ⟨q1, q2⟩ | ⟨uo', lo', hi', q1, q2, q3, _, q4⟩
    · -- nothing found: then all ends are in the map
      exfalso
      rw [q2] at g4
      have hc : t.cached = true := g6 (by cases r with
        | none => rfl
        | some u => cases g4)
      have : ∃ e ∈ m, e.1 = hi := by
        rcases hu with hu | hu
        · exact g3.sets _ _ _ hu
        · exact g3.roots hc _ _ _ hu
      obtain ⟨e, e1, e2⟩ := this
      have := q1 e e1
      omega
    · rcases q4 with ⟨q4, q5⟩ | ⟨qc, q4, q5⟩
      · by_cases hlo : lo' ≤ addr.toNat
        · obtain ⟨rfl, rfl, rfl⟩ := same q1 q2 (.inl hlo)
          rw [q5, if_pos hlo]
        · exfalso
          rw [q5, if_neg hlo] at g4
          have hc : t.cached = true := g6 (by cases r with
            | none => rfl
            | some u => cases g4)
          have : ∃ e ∈ m, e.1 = hi := by
            rcases hu with hu | hu
            · exact g3.sets _ _ _ hu
            · exact g3.roots hc _ _ _ hu
          obtain ⟨e, e1, e2⟩ := this
          have := q3 e e1 (by omega)
          have := (same q1 q2 (.inr (by omega))).2.1
          omega
      · have : ∃ e ∈ m, e.1 = hi := by
          rcases hu with hu | hu
          · exact g3.sets _ _ _ hu
          · exact g3.roots qc _ _ _ hu
        obtain ⟨e, e1, e2⟩ := this
        have := q3 e e1 (by omega)
        obtain ⟨rfl, rfl, rfl⟩ := same q1 q2 (.inr (by omega))
        rw [q5, if_pos (h3.resolve_left (fun h => h q4))]
  rw [key] at g4
  cases r with
  | none => cases g4
  | some u =>
    injection g4 with g4
    exact ⟨u, t, s, g1, g4, by rw [← g4]; exact g5 u rfl⟩

/-- When no root has a list of ranges. -/
theorem lookup_only (hno : ∀ uo lo hi, ¬ListRange d xs uo lo hi) (addr : BitVec 64) {fuel : Nat} (hf : 1 ≤ fuel) :
    ∃ r t s, lookupUnit d sec fuel addr a.t a.c.st = .ok (r, t, s) ∧
      (∀ u, r = some u → openUnit d.info d.abbr u.offset = .ok u ∧ ∃ lo hi, UnitHas d xs sets u.offset lo hi ∧ lo ≤ addr.toNat ∧ addr.toNat < hi) ∧
      (r = none → ∀ uo lo hi, UnitHas d xs sets uo lo hi → ¬(lo ≤ addr.toNat ∧ addr.toNat < hi)) := by
  obtain ⟨r, t, s, m, g1, _, _, g3, g4, g5, g6, _⟩ := lookup_spec hok hfit hrefs hsec hroots hag hne hg addr hf
  refine ⟨r, t, s, g1, ?_, ?_⟩
  · intro u hu
    subst hu
    refine ⟨g5 u rfl, ?_⟩
    rcases map_find hag g3 addr with ⟨q1, q2⟩ | ⟨uo', lo', hi', q1, q2, q3, _, q4⟩
    · rw [q2] at g4; cases g4
    · rcases q4 with ⟨q4, q5⟩ | ⟨_, q4, _⟩
      · rw [q5] at g4
        split at g4
        · rename_i hlo
          injection g4 with g4
          refine ⟨lo', hi', ?_, hlo, q2⟩
          have : u.offset = uo' := g4
          rw [this]; exact q1
        · cases g4
      · exact absurd q4 (hno _ _ _)
  · intro hr uo lo hi hu hin
    obtain ⟨u, t', s', k1, _⟩ := lookup_found hok hfit hrefs hsec hroots hag hne hg hu hin.1 hin.2 (.inl (hno _ _ _)) hf
    rw [g1, hr] at k1
    injection k1 with k1; injection k1 with k1 _; cases k1

end

section
variable {d : Sections} {xs : List DieUnit} {sec : Option (List Byte)} {sets : List ArangeSet} (hok : InfoOk d xs) (hfit : SectionsFit d) (hrefs : RefsOk xs) (hsec : ArangesOk sec sets)
  (hroots : RootsOk d xs) (hag : RangesAgree d xs sets) (hne : xs ≠ []) {a : LClient} (h : LHistory d xs sec a)
include hok hfit hrefs hsec hroots hag hne h

/-- C57. A unit that has the address is found. Missing: ranges that a root has in its list, for addresses that are smaller than the range is long (`C57_not_low`). -/
theorem C57_found_partial {uo lo hi : Nat} (hu : UnitHas d xs sets uo lo hi) {addr : BitVec 64} (h1 : lo ≤ addr.toNat) (h2 : addr.toNat < hi)
    (h3 : ¬ListRange d xs uo lo hi ∨ hi - lo ≤ addr.toNat) {fuel : Nat} (hf : 1 ≤ fuel) :
    ∃ u t s, lookupUnit d sec fuel addr a.t a.c.st = .ok (some u, t, s) ∧ u.offset = uo ∧ openUnit d.info d.abbr uo = .ok u :=
   lookup_found hok hfit hrefs hsec hroots hag hne (lookup_history hok hfit hrefs hsec hroots hag hne h) hu h1 h2 h3 hf

/-- C57. When no root has a list of ranges: a lookup always has an answer, a unit found has the address, and if none is found no unit has it. -/
theorem C57_only (hno : ∀ uo lo hi, ¬ListRange d xs uo lo hi) (addr : BitVec 64) {fuel : Nat} (hf : 1 ≤ fuel) :
    ∃ r t s, lookupUnit d sec fuel addr a.t a.c.st = .ok (r, t, s) ∧
      (∀ u, r = some u → openUnit d.info d.abbr u.offset = .ok u ∧ ∃ lo hi, UnitHas d xs sets u.offset lo hi ∧ lo ≤ addr.toNat ∧ addr.toNat < hi) ∧
      (r = none → ∀ uo lo hi, UnitHas d xs sets uo lo hi → ¬(lo ≤ addr.toNat ∧ addr.toNat < hi)) :=
   lookup_only hok hfit hrefs hsec hroots hag hne (lookup_history hok hfit hrefs hsec hroots hag hne h) hno addr hf

/-- C57: an address no unit has, before a range of the list of a root (and nearer to it than to any other), is taken to be in that unit, if it is not smaller
than the range is long: what is remembered of the range is where it begins, where the length is expected. -/
theorem C57_not_gap {uo lo hi : Nat} (hu : ListRange d xs uo lo hi) (h1 : ¬SetRange sets uo lo hi) (h2 : ¬BoundsRange d xs uo lo hi) {addr : BitVec 64} (h3 : addr.toNat < lo)
    (h4 : hi - lo ≤ addr.toNat) (h5 : ∀ uo' lo' hi', UnitHas d xs sets uo' lo' hi' → addr.toNat < hi' → hi ≤ hi') {fuel : Nat} (hf : 1 ≤ fuel) :
    (∀ uo' lo' hi', UnitHas d xs sets uo' lo' hi' → ¬(lo' ≤ addr.toNat ∧ addr.toNat < hi')) ∧
    ∃ u t s, lookupUnit d sec fuel addr a.t a.c.st = .ok (some u, t, s) ∧ u.offset = uo := by
  have hg := lookup_history hok hfit hrefs hsec hroots hag hne h
  have hu' : UnitHas d xs sets uo lo hi := .inr (.inr hu)
  have hb := hag.some _ _ _ hu'
  have no : ∀ uo' lo' hi', UnitHas d xs sets uo' lo' hi' → ¬(lo' ≤ addr.toNat ∧ addr.toNat < hi') := by
    intro uo' lo' hi' q1 q2
    have := h5 _ _ _ q1 q2.2
    rcases hag.apart _ _ _ _ _ _ q1 hu' with q | q | q <;> omega
  refine ⟨no, ?_⟩
  obtain ⟨r, t, s, m, g1, _, _, g3, g4, g5, g6, _⟩ := lookup_spec hok hfit hrefs hsec hroots hag hne hg addr hf
  have key : ∀ hc : t.cached = true, findRange m addr = some uo := by
    intro hc
    obtain ⟨e, e1, e2⟩ := g3.roots hc _ _ _ (.inr hu)
    rcases map_find hag g3 addr with ⟨q1, q2⟩ | ⟨uo', lo', hi', q1, q2, q3, _, q4⟩
    · have := q1 e e1; omega
    · have := q3 e e1 (by omega)
      have := h5 _ _ _ q1 q2
      have b := hag.some _ _ _ q1
      have : uo' = uo ∧ lo' = lo ∧ hi' = hi := by
        rcases hag.apart _ _ _ _ _ _ q1 hu' with q | q | q
        · exact q
        · omega
        · omega
      obtain ⟨rfl, rfl, rfl⟩ := this
      rcases q4 with ⟨q4 | q4, _⟩ | ⟨_, _, q5⟩
      · exact absurd q4 h1
      · exact absurd q4.2 h2
      · rw [q5, if_pos h4]
  cases r with
  | none =>
    rw [key (g6 rfl)] at g4; cases g4
  | some u =>
    refine ⟨u, t, s, g1, ?_⟩
    cases hc : t.cached with
    | true =>
      rw [key hc] at g4; injection g4
    | false =>
      -- found in .debug_aranges: then some unit has the address
      exfalso
      rw [hc] at g3
      rcases map_find hag g3 addr with ⟨q1, q2⟩ | ⟨uo', lo', hi', q1, q2, q3, _, q4⟩
      · rw [q2] at g4; cases g4
      · rcases q4 with ⟨_, q5⟩ | ⟨q4, _⟩
        · rw [q5] at g4
          split at g4
          · rename_i hlo; exact no _ _ _ q1 ⟨hlo, q2⟩
          · cases g4
        · cases q4

/-- C57: an address that is in a range of the list of a root, and smaller than the range is long, is not found. -/
theorem C57_not_low {uo lo hi : Nat} (hu : ListRange d xs uo lo hi) (h1 : ¬SetRange sets uo lo hi) (h2 : ¬BoundsRange d xs uo lo hi) {addr : BitVec 64} (h3 : lo ≤ addr.toNat)
    (h4 : addr.toNat < hi) (h5 : addr.toNat < hi - lo) {fuel : Nat} (hf : 1 ≤ fuel) : ∃ t s, lookupUnit d sec fuel addr a.t a.c.st = .ok (none, t, s) := by
  have hg := lookup_history hok hfit hrefs hsec hroots hag hne h
  have hu' : UnitHas d xs sets uo lo hi := .inr (.inr hu)
  obtain ⟨r, t, s, m, g1, _, _, g3, g4, g5, g6, _⟩ := lookup_spec hok hfit hrefs hsec hroots hag hne hg addr hf
  cases r with
  | none => exact ⟨t, s, g1⟩
  | some u =>
    exfalso
    rcases map_find hag g3 addr with ⟨q1, q2⟩ | ⟨uo', lo', hi', q1, q2, q3, _, q4⟩
    · rw [q2] at g4; cases g4
    · have b := hag.some _ _ _ q1
      have same : lo' ≤ addr.toNat ∨ hi' ≤ hi → uo' = uo ∧ lo' = lo ∧ hi' = hi := by
        intro q
        rcases hag.apart _ _ _ _ _ _ q1 hu' with q | q | q
        · exact q
        · omega
        · omega
      rcases q4 with ⟨q4, q5⟩ | ⟨qc, q4, q5⟩
      · rw [q5] at g4
        split at g4
        · rename_i hlo
          obtain ⟨rfl, rfl, rfl⟩ := same (.inl hlo)
          rcases q4 with q4 | q4
          · exact h1 q4
          · exact h2 q4.2
        · cases g4
      · obtain ⟨e, e1, e2⟩ := g3.roots qc _ _ _ (.inr hu)
        have := q3 e e1 (by omega)
        obtain ⟨rfl, rfl, rfl⟩ := same (.inr (by omega))
        rw [q5, if_neg (by omega)] at g4
        cases g4

end

/-- C57: a high address that is in the table of addresses is taken for the size, and the end of the range is wrong by the low address. -/
theorem C57_not_addrx {d : Sections} {xs : List DieUnit} (hok : InfoOk d xs) (hrefs : RefsOk xs) (hfit : SectionsFit d) {c : IClient} (hc : IHistory d xs c) {y : DIE} (hy : c.Holds d y) :
    ∃ uo x o e, IsEntry d xs y uo x o e ∧ ∀ i j lo hi (b : AttrDecl), e.find 0x11 = some i → AttrNumber d x e i lo → e.find 0x12 = some j → e.decl.attrs[j]? = some b → isAddrxForm b.form →
      AttrNumber d x e j hi → lo + hi < 2 ^ 64 → ∀ fuel, 1 ≤ fuel → ∀ m, ∃ s', addBounds d fuel uo (some ⟨y, i⟩) (some ⟨y, j⟩) m c.st = .ok (m.assign (lo + hi) (hi, uo), s') := by
  have hg := igood_history hok hrefs hc
  obtain ⟨uo, x, o, e, h⟩ := holds_good hok hg hy
  refine ⟨uo, x, o, e, h.isEntry, ?_⟩
  rintro i j lo hi b f1 ⟨a, va, f2, f3, f4⟩ f5 f6 f7 ⟨b', vb, f8, f9, f10⟩ hlt fuel h1 m
  rw [f6] at f8; injection f8 with f8; subst f8
  obtain ⟨lw, s1, k1, k2, k3, _⟩ := toNum_spec hok hfit hg.st h f2 f3 f4 h1
  have hg1 := h.ext k3.2
  obtain ⟨hw, s2, l1, l2, l3, _⟩ := toNum_spec hok hfit k3.1 hg1 f6 f9 f10 h1
  have flb : Attr.form s2 ⟨y, j⟩ = .ok b.form := by
    obtain ⟨b2, _, _, _, g1, _, _, _, g2, _⟩ := attr_shows hok l3.1 (hg1.ext l3.2) f6
    rw [f6] at g1; injection g1 with g1; subst g1; exact g2
  refine ⟨s2, ?_⟩
  unfold addBounds
  simp only
  rw [k1, Res.bind_ok]
  simp only
  rw [l1, Res.bind_ok]
  simp only
  rw [flb, Res.bind_ok]
  have hne : b.form ≠ 0x01 := by intro e; rw [e] at f7; cases f7
  rw [if_pos hne]
  have e1 : hw + lw - lw = hw := by rw [BitVec.add_sub_cancel]
  rw [e1, l2, BitVec.toNat_add, l2, k2, Nat.mod_eq_of_lt (by omega), Nat.add_comm]

/-- C57: in a set with addresses of two bytes, where the header ends at a multiple of the size of a tuple, the first tuple is skipped. -/
theorem C57_not_first : ∃ sec : List Byte, sec = leBytes 4 20 ++ (leBytes 2 2 ++ (leBytes 4 7 ++ (2#8 :: 0#8 :: (leBytes 2 0x100 ++ (leBytes 2 0x20 ++ (leBytes 2 0x300 ++ (leBytes 2 0x40 ++ leBytes 4 0)))))))
    ∧ arangeSets sec (sec.length + 1) 0 [] = .ok [(0, 0, 7), (0x340, 0x40, 7)] := ⟨_, rfl, by decide +kernel⟩

/-- C57: in the 64-bit format, the offset of the unit has eight bytes, of which four are read, and the tuples are not. -/
theorem C57_not_64 : ∃ sec : List Byte, sec = leBytes 4 0xffffffff ++ (leBytes 8 52 ++ (leBytes 2 2 ++ (leBytes 8 0 ++ (8#8 :: 0#8 :: (leBytes 8 0 ++ (leBytes 8 0x100 ++ (leBytes 8 0x20 ++ leBytes 16 0)))))))
    ∧ ∃ m, arangeSets sec (sec.length + 1) 0 [] = .ok m ∧ findRange m 0x110 = none := ⟨_, rfl, _, rfl, by decide +kernel⟩

/-! ### Two units -/

/-- From 0x1000 to 0x1020, by a low address and a size. -/
def unitOneRoot : DieDecl := ⟨1, 0x11, false, [⟨0x11, 0x01, 0⟩, ⟨0x12, 0x0b, 0⟩]⟩
/-- By a list. -/
def unitTwoRoot : DieDecl := ⟨2, 0x11, false, [⟨0x11, 0x01, 0⟩, ⟨0x55, 0x17, 0⟩]⟩
def unitDecls : List DieDecl := [unitOneRoot, unitTwoRoot]
def unitOne : DieUnit := ⟨false, 4, 1, 8, [], 0, unitDecls, ⟨⟨unitOneRoot, [.num 0x1000, .num 0x20]⟩, none⟩, []⟩
def unitTwo : DieUnit := ⟨false, 4, 1, 8, [], 0, unitDecls, ⟨⟨unitTwoRoot, [.num 0, .num 0]⟩, none⟩, []⟩
def unitList : List OldRange := [.range 0x2000 0x2010, .range 0x3000 0x9000]
def unitSections : Sections := ⟨encodeUnits [unitOne, unitTwo], encodeDecls unitDecls, [], [], encodeOldRanges unitList, [], none, none⟩
/-- .debug_aranges has the first unit only, and a bit more of it. -/
def unitSet : ArangeSet := ⟨2, 0, 8, [0, 0, 0, 0], [(0x1000, 0x20), (0x1100, 0x10)]⟩
def unitAranges : List Byte := encodeSets [unitSet]

theorem unitOne_placed : (unitOne.placed 0).all = [(11, ⟨unitOneRoot, [.num 0x1000, .num 0x20]⟩)] := by
  simp [unitOne, unitOneRoot, DieUnit.sizes, DieUnit.rootPos, DieUnit.lengthField, DieTree.all, DieTree.firsts, Forest.firsts,
      DieUnit.header, DieUnit.offSize, DieUnit.placed, DieTree.place, Forest.place, DieEntry.encode, encodeVals, formKind,
      FormKind.encode, Sizes.refAddr, encodeU_small, leBytes_length]

theorem unitTwo_placed : (unitTwo.placed 21).all = [(32, ⟨unitTwoRoot, [.num 0, .num 0]⟩)] := by
  simp [unitTwo, unitTwoRoot, DieUnit.sizes, DieUnit.rootPos, DieUnit.lengthField, DieTree.all, DieTree.firsts, Forest.firsts,
      DieUnit.header, DieUnit.offSize, DieUnit.placed, DieTree.place, Forest.place, DieEntry.encode, encodeVals, formKind,
      FormKind.encode, Sizes.refAddr, encodeU_small, leBytes_length]

theorem unitOne_length : unitOne.encode.length = 21 := by
  simp [unitOne, unitOneRoot, DieUnit.encode, DieUnit.body, DieUnit.sizes, DieUnit.lengthField, DieTree.encode, Forest.encode,
      DieUnit.header, DieUnit.offSize, DieEntry.encode, encodeVals, formKind, FormKind.encode, Sizes.refAddr, encodeU_small, leBytes_length]

theorem unitTwo_length : unitTwo.encode.length = 24 := by
  simp [unitTwo, unitTwoRoot, DieUnit.encode, DieUnit.body, DieUnit.sizes, DieUnit.lengthField, DieTree.encode, Forest.encode,
      DieUnit.header, DieUnit.offSize, DieEntry.encode, encodeVals, formKind, FormKind.encode, Sizes.refAddr, encodeU_small, leBytes_length]

theorem unit_places : placeUnits 0 [unitOne, unitTwo] = [(0, unitOne), (21, unitTwo)] := by
  simp [placeUnits, unitOne_length]

theorem unitDecls_wf : ∀ a ∈ unitDecls, a.WF := by
  intro a ha
  simp only [unitDecls, List.mem_cons, List.not_mem_nil, or_false] at ha
  rcases ha with rfl | rfl <;> refine ⟨by decide, by decide, ?_⟩ <;> intro b hb <;>
    simp only [unitOneRoot, unitTwoRoot, List.mem_cons, List.not_mem_nil, or_false] at hb
  · rcases hb with rfl | rfl <;> exact ⟨by decide, by decide, by decide⟩
  · rcases hb with rfl | rfl <;> exact ⟨by decide, by decide, by decide⟩

theorem unit_ok : InfoOk unitSections [unitOne, unitTwo] := by
  refine ⟨rfl, ?_, ?_, ?_, ?_⟩
  · intro x hx
    simp only [List.mem_cons, List.not_mem_nil, or_false] at hx
    rcases hx with rfl | rfl
    · refine ⟨⟨by decide, fun _ => .inl (by decide), by decide, (fun h => by cases h), by decide, unitDecls_wf, by decide, ?_⟩, ?_, by decide, (fun h => by cases h)⟩
      · simp [unitOne, unitDecls, unitOneRoot, unitTwoRoot, DieUnit.sizes, DieUnit.rootPos, DieUnit.lengthField,
          DieUnit.header, DieUnit.offSize, DieTree.WF, Forest.WF, ValsFit, AttrFits, DieTree.encode, Forest.encode, DieEntry.encode, encodeVals, formKind,
          FormKind.encode, Sizes.refAddr, FormKind.Fits, IsLocalRef, encodeU_small, leBytes_length, GoodName]
      · simp [unitOne, unitOneRoot, DieUnit.body, DieUnit.sizes, DieTree.encode, Forest.encode,
          DieUnit.header, DieUnit.offSize, DieEntry.encode, encodeVals, formKind, FormKind.encode, Sizes.refAddr, encodeU_small, leBytes_length]
    · refine ⟨⟨by decide, fun _ => .inl (by decide), by decide, (fun h => by cases h), by decide, unitDecls_wf, by decide, ?_⟩, ?_, by decide, (fun h => by cases h)⟩
      · simp [unitTwo, unitDecls, unitOneRoot, unitTwoRoot, DieUnit.sizes, DieUnit.rootPos, DieUnit.lengthField,
          DieUnit.header, DieUnit.offSize, DieTree.WF, Forest.WF, ValsFit, AttrFits, DieTree.encode, Forest.encode, DieEntry.encode, encodeVals, formKind,
          FormKind.encode, Sizes.refAddr, FormKind.Fits, IsLocalRef, encodeU_small, leBytes_length, GoodName]
      · simp [unitTwo, unitTwoRoot, DieUnit.body, DieUnit.sizes, DieTree.encode, Forest.encode,
          DieUnit.header, DieUnit.offSize, DieEntry.encode, encodeVals, formKind, FormKind.encode, Sizes.refAddr, encodeU_small, leBytes_length]
  · intro x hx
    simp only [List.mem_cons, List.not_mem_nil, or_false] at hx
    rcases hx with rfl | rfl <;> exact ⟨[], by simp [unitOne, unitTwo, unitSections]⟩
  · simp [unitSections, encodeUnits, unitOne_length, unitTwo_length]
  · simp [unitSections, encodeDecls, unitDecls, DieDecl.encode, AttrDecl.encode, unitOneRoot, unitTwoRoot, encodeU_small]

theorem unit_refs : RefsOk [unitOne, unitTwo] := by
  intro uo x o e he i a v o' ha hv hn hr
  exfalso
  obtain ⟨n, rfl, hr⟩ := hr
  have hf : IsLocalRef a.form ∨ a.form = 0x10 := by
    rcases hr with ⟨h, _⟩ | ⟨h, _⟩
    · exact .inl h
    · exact .inr h
  have hm := List.mem_of_getElem? ha
  obtain ⟨h1, h2⟩ := he
  rw [unit_places] at h1
  simp only [List.mem_cons, List.not_mem_nil, or_false, Prod.mk.injEq] at h1
  rcases h1 with ⟨rfl, rfl⟩ | ⟨rfl, rfl⟩
  · rw [unitOne_placed] at h2
    simp only [List.mem_cons, List.not_mem_nil, or_false, Prod.mk.injEq] at h2
    obtain ⟨rfl, rfl⟩ := h2
    simp only [unitOneRoot, List.mem_cons, List.not_mem_nil, or_false] at hm
    rcases hm with rfl | rfl <;> simp [IsLocalRef] at hf
  · rw [unitTwo_placed] at h2
    simp only [List.mem_cons, List.not_mem_nil, or_false, Prod.mk.injEq] at h2
    obtain ⟨rfl, rfl⟩ := h2
    simp only [unitTwoRoot, List.mem_cons, List.not_mem_nil, or_false] at hm
    rcases hm with rfl | rfl <;> simp [IsLocalRef] at hf

theorem unit_fit : SectionsFit unitSections := ⟨by decide, by decide, by decide, by decide, (fun _ h => nomatch h), fun _ h => nomatch h⟩

theorem unit_bounds : RootBounds unitSections unitOne 0x1000 0x1020 := by
  refine ⟨⟨0, 1, _, _, 0x20, by decide, rfl, .inl rfl, ⟨_, _, rfl, rfl, .const (by decide)⟩, by decide, rfl, ⟨_, _, rfl, rfl, .const (by decide)⟩, by decide, by decide, .inr ⟨⟨rfl, by decide⟩, rfl⟩⟩, ?_⟩
  intro i b h1 h2
  have : i = 1 := by
    have e : unitOne.tree.root.find 0x12 = some 1 := by decide
    rw [e] at h1; injection h1 with h1; exact h1.symm
  subst this
  injection h2 with h2; subst h2; decide

theorem unit_ranges : RootRanges unitSections [unitOne, unitTwo] 21 unitTwo [(0x2000, 0x2010), (0x3000, 0x9000)] := by
  refine ⟨1, 0, 0, by decide, ⟨_, _, rfl, rfl, .offset rfl (by decide)⟩, by decide, .inl ⟨0, by decide, ⟨_, _, rfl, rfl, .const (by decide)⟩, by decide⟩,
    .inl ⟨by decide, unitList, [], ?_, ?_, by decide⟩, .inl ⟨rfl, rfl⟩⟩
  · rw [List.append_nil]; rfl
  · simp [unitList, OldRangesOk]

theorem unit_roots : RootsOk unitSections [unitOne, unitTwo] := by
  intro uo x h
  rw [unit_places] at h
  simp only [List.mem_cons, List.not_mem_nil, or_false, Prod.mk.injEq] at h
  rcases h with ⟨rfl, rfl⟩ | ⟨rfl, rfl⟩
  · exact ⟨by decide, by decide, .inr (.inr ⟨_, _, unit_bounds⟩), .inl (by decide)⟩
  · exact ⟨by decide, by decide, .inr (.inl (by decide)), .inr ⟨_, unit_ranges⟩⟩

/-- The ranges of the units. -/
theorem unit_has {uo lo hi : Nat} : UnitHas unitSections [unitOne, unitTwo] [unitSet] uo lo hi ↔
    (uo, lo, hi) ∈ [(0, 0x1000, 0x1020), (0, 0x1100, 0x1110), (21, 0x2000, 0x2010), (21, 0x3000, 0x9000)] := by
  constructor
  · have hs := (igood_history unit_ok unit_refs (.start (d := unitSections))).st
    have hr := ranges_history unit_ok unit_fit unit_refs (.start (d := unitSections))
    rintro (⟨x, h1, h2, n, h3, h4⟩ | ⟨x, h1, h2⟩ | ⟨x, l, h1, h2, h3⟩)
    · simp at h1; subst h1
      simp [unitSet] at h2 h3
      simp only [List.mem_cons, List.not_mem_nil, or_false, Prod.mk.injEq]
      omega
    · rw [unit_places] at h1
      simp only [List.mem_cons, List.not_mem_nil, or_false, Prod.mk.injEq] at h1
      rcases h1 with ⟨rfl, rfl⟩ | ⟨rfl, rfl⟩
      · obtain ⟨u, t, hop⟩ := opened unit_ok (show (0, unitOne) ∈ placeUnits 0 [unitOne, unitTwo] by rw [unit_places]; simp)
        obtain ⟨y, s', _, g2, g3⟩ := root_good unit_ok hs (show (0, unitOne) ∈ placeUnits 0 [unitOne, unitTwo] by rw [unit_places]; simp) hop.isOpen
        obtain ⟨rfl, rfl⟩ := rootBounds_unique unit_ok unit_fit g2.1 g3 unit_bounds h2
        simp
      · obtain ⟨⟨i, j, a, b, n, _, _, _, _, f1, _⟩, _⟩ := h2
        have : unitTwo.tree.root.find 0x12 = none := by decide
        rw [this] at f1; cases f1
    · rw [unit_places] at h1
      simp only [List.mem_cons, List.not_mem_nil, or_false, Prod.mk.injEq] at h1
      rcases h1 with ⟨rfl, rfl⟩ | ⟨rfl, rfl⟩
      · obtain ⟨i, n, base, f1, _⟩ := h2
        have : unitOne.tree.root.find 0x55 = none := by decide
        rw [this] at f1; cases f1
      · obtain ⟨u, t, hop⟩ := opened unit_ok (show (21, unitTwo) ∈ placeUnits 0 [unitOne, unitTwo] by rw [unit_places]; simp)
        obtain ⟨y, s', _, g2, g3⟩ := root_good unit_ok hs (show (21, unitTwo) ∈ placeUnits 0 [unitOne, unitTwo] by rw [unit_places]; simp) hop.isOpen
        obtain ⟨_, k1⟩ := dieRanges_root unit_ok unit_fit unit_refs g2.1 (hr.of_eq g2.2.2) g3 unit_ranges (fuel := 1) (Nat.le_refl _)
        obtain ⟨_, k2⟩ := dieRanges_root unit_ok unit_fit unit_refs g2.1 (hr.of_eq g2.2.2) g3 h2 (fuel := 1) (Nat.le_refl _)
        rw [k1] at k2; injection k2 with k2; injection k2 with k2 _; injection k2 with k2
        subst k2
        simp at h3 ⊢; omega
  · intro h
    simp only [List.mem_cons, List.not_mem_nil, or_false, Prod.mk.injEq] at h
    rcases h with ⟨rfl, rfl, rfl⟩ | ⟨rfl, rfl, rfl⟩ | ⟨rfl, rfl, rfl⟩ | ⟨rfl, rfl, rfl⟩
    · exact .inl ⟨_, List.mem_singleton.2 rfl, rfl, 0x20, by simp [unitSet], rfl⟩
    · exact .inl ⟨_, List.mem_singleton.2 rfl, rfl, 0x10, by simp [unitSet], rfl⟩
    · exact .inr (.inr ⟨_, _, by rw [unit_places]; simp, unit_ranges, by simp⟩)
    · exact .inr (.inr ⟨_, _, by rw [unit_places]; simp, unit_ranges, by simp⟩)

theorem unit_aranges : ArangesOk (some unitAranges) [unitSet] := by
  refine ⟨?_, .inl rfl, by decide⟩
  intro x hx
  simp at hx; subst hx
  refine ⟨by decide, by decide, .inr rfl, rfl, ?_, by decide⟩
  intro t ht
  simp [unitSet] at ht
  rcases ht with rfl | rfl <;> decide

theorem unit_agree : RangesAgree unitSections [unitOne, unitTwo] [unitSet] := by
  refine ⟨?_, ?_, ?_⟩
  · intro uo lo hi h
    have h := unit_has.1 h
    simp only [List.mem_cons, List.not_mem_nil, or_false, Prod.mk.injEq] at h
    omega
  · intro uo lo hi uo' lo' hi' h h'
    have h := unit_has.1 h
    have h' := unit_has.1 h'
    simp only [List.mem_cons, List.not_mem_nil, or_false, Prod.mk.injEq] at h h'
    omega
  · intro x hx
    simp at hx; subst hx
    exact ⟨unitOne, by rw [unit_places]; simp [unitSet]⟩

/-- The theorems apply to it, here to a program that has done nothing yet: 0x1105 is found by .debug_aranges, 0x2005 by the list of the root of the second unit; 0x1ff0, which
neither unit has, is said to be in the second, and 0x3005 is not found. -/
theorem C57_example : ∃ a : LClient, LHistory unitSections [unitOne, unitTwo] (some unitAranges) a ∧
    (∃ u t s, lookupUnit unitSections (some unitAranges) 1 0x1105 a.t a.c.st = .ok (some u, t, s) ∧ u.offset = 0) ∧
    (∃ u t s, lookupUnit unitSections (some unitAranges) 1 0x2005 a.t a.c.st = .ok (some u, t, s) ∧ u.offset = 21) ∧
    (∃ u t s, lookupUnit unitSections (some unitAranges) 1 0x1ff0 a.t a.c.st = .ok (some u, t, s) ∧ u.offset = 21) ∧
    (∃ t s, lookupUnit unitSections (some unitAranges) 1 0x3005 a.t a.c.st = .ok (none, t, s)) := by
  have hh := LHistory.start (d := unitSections) (xs := [unitOne, unitTwo]) (sec := some unitAranges)
  have nb : ∀ lo hi, ¬BoundsRange unitSections [unitOne, unitTwo] 21 lo hi := by
    rintro lo hi ⟨x, h1, h2⟩
    rw [unit_places] at h1
    simp at h1; subst h1
    obtain ⟨⟨i, j, a, b, n, _, _, _, _, f1, _⟩, _⟩ := h2
    have : unitTwo.tree.root.find 0x12 = none := by decide
    rw [this] at f1; cases f1
  have ns : ∀ lo hi, ¬SetRange [unitSet] 21 lo hi := by
    rintro lo hi ⟨x, h1, h2, _⟩
    simp at h1; subst h1
    cases h2
  have hl : ∀ lo hi, (lo, hi) ∈ [(0x2000, 0x2010), (0x3000, 0x9000)] → ListRange unitSections [unitOne, unitTwo] 21 lo hi :=
    fun lo hi h => ⟨_, _, by rw [unit_places]; simp, unit_ranges, h⟩
  refine ⟨_, hh, ?_, ?_, ?_, ?_⟩
  · obtain ⟨u, t, s, h1, h2, _⟩ := C57_found_partial unit_ok unit_fit unit_refs unit_aranges unit_roots unit_agree (by decide) hh (unit_has.2 (by simp) : UnitHas _ _ _ 0 0x1100 0x1110)
      (addr := 0x1105) (by decide) (by decide) (.inr (by decide)) (fuel := 1) (Nat.le_refl _)
    exact ⟨u, t, s, h1, h2⟩
  · obtain ⟨u, t, s, h1, h2, _⟩ := C57_found_partial unit_ok unit_fit unit_refs unit_aranges unit_roots unit_agree (by decide) hh (unit_has.2 (by simp) : UnitHas _ _ _ 21 0x2000 0x2010)
      (addr := 0x2005) (by decide) (by decide) (.inr (by decide)) (fuel := 1) (Nat.le_refl _)
    exact ⟨u, t, s, h1, h2⟩
  · refine (C57_not_gap unit_ok unit_fit unit_refs unit_aranges unit_roots unit_agree (by decide) hh (hl 0x2000 0x2010 (by simp)) (ns _ _) (nb _ _)
      (addr := 0x1ff0) (by decide) (by decide) ?_ (fuel := 1) (Nat.le_refl _)).2
    intro uo' lo' hi' h h'
    have h := unit_has.1 h
    have e : (0x1ff0 : BitVec 64).toNat = 0x1ff0 := rfl
    rw [e] at h'
    simp only [List.mem_cons, List.not_mem_nil, or_false, Prod.mk.injEq] at h
    omega
  · exact C57_not_low unit_ok unit_fit unit_refs unit_aranges unit_roots unit_agree (by decide) hh (hl 0x3000 0x9000 (by simp)) (ns _ _) (nb _ _)
      (addr := 0x3005) (by decide) (by decide) (by decide) (fuel := 1) (Nat.le_refl _)

end Pstack.Props
