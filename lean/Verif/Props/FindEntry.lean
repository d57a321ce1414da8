import Verif.Proof.Inlined
import Verif.Props.Lookup
/-
Property theorems C58 and C59: the function of an address, and the inlined functions there (Spec/FindEntry.lean), after any history.
-/
namespace Pstack.Props
open Pstack.Reader Pstack.Spec Pstack.Dwarf Pstack.Die

section
variable {d : Sections} {xs : List DieUnit} (hok : InfoOk d xs) (hfit : SectionsFit d) (hrefs : RefsOk xs) {c : IClient} (hc : IHistory d xs c)
include hok hfit hrefs hc

/-- C58. The search below an entry finds the first entry with the tag that has the address and is not below one that does not have it, if there is one.
Missing: addresses that are the end of a range of an entry (in `Told`; `C58_not_end`). -/
theorem C58_entry_partial {y : DIE} (hy : c.Holds d y) : ∃ uo x o e, IsEntry d xs y uo x o e ∧ ∀ F (addr : BitVec 64), (x.placed uo).KidsOf (o, e) F →
    (∀ b ∈ (o, e) :: F.all, Told d xs uo x addr.toNat b) → ∃ n, ∀ fuel depth tag skip, n ≤ fuel → n ≤ depth →
      ∃ r s', findEntry d fuel addr tag depth y skip c.st = .ok (r, s') ∧ FirstOf d xs uo x (HitFrom d xs uo x addr.toNat tag skip (o, e) F) r := by
  have hg := igood_history hok hrefs hc
  obtain ⟨uo, x, o, e, h⟩ := holds_good hok hg hy
  refine ⟨uo, x, o, e, h.isEntry, ?_⟩
  intro F addr hF ht
  obtain ⟨n, hn⟩ := search_told hok hfit hrefs h.entry.1 hF ht
  refine ⟨n, fun fuel depth tag skip h1 h2 => ?_⟩
  obtain ⟨r, s', k1, _, _, k2⟩ := hn fuel depth tag skip y c.st h1 h2 hg.st (ranges_history hok hfit hrefs hc) h
  exact ⟨r, s', k1, k2.first⟩

/-- C58 does not hold for the end of a range: an entry that says it does not have the address is the one found. -/
theorem C58_not_end {y : DIE} (hy : c.Holds d y) : ∃ uo x o e, IsEntry d xs y uo x o e ∧ ∀ L, EntryRanges d xs uo x o e L → NoBounds e → ∀ (addr : BitVec 64),
    (∃ r ∈ L, r.1 ≤ r.2 ∧ addr.toNat = r.2) → ∀ fuel depth, 1 ≤ fuel → 1 ≤ depth → ∃ s', findEntry d fuel addr e.decl.tag depth y false c.st = .ok (some y, s') := by
  have hg := igood_history hok hrefs hc
  have hr := ranges_history hok hfit hrefs hc
  obtain ⟨uo, x, o, e, h⟩ := holds_good hok hg hy
  refine ⟨uo, x, o, e, h.isEntry, ?_⟩
  rintro L hL hno addr ⟨r, m, hle, ha⟩ fuel depth h1 h2
  obtain ⟨n, rfl⟩ : ∃ n, depth = n + 1 := ⟨depth - 1, by omega⟩
  obtain ⟨s', k⟩ := contains_list hok hfit hrefs hg.st hr h hL hno addr h1
  rw [if_pos (List.any_eq_true.2 ⟨r, m, decide_eq_true ⟨by omega, by omega⟩⟩)] at k
  have k1 := containsAddress_keep hok hrefs hg.st ⟨uo, x, o, e, h⟩ k
  obtain ⟨raw, q1, q2, _⟩ := good_raw hok k1.1 (h.extR k1.2)
  refine ⟨s', ?_⟩
  rw [findEntry, k, Res.bind_ok]
  simp only
  rw [q1, Res.bind_ok, q2, if_pos ⟨trivial, rfl⟩]

/-- C59. The inlined functions found for an address of a function: the first below the function that has the address, the first below that, and so on.
Missing: as in C58, addresses that are the end of a range of an entry. -/
theorem C59_chain_partial {y : DIE} (hy : c.Holds d y) : ∃ uo x o e, IsEntry d xs y uo x o e ∧ ∀ F (addr : BitVec 64), (x.placed uo).KidsOf (o, e) F →
    (∀ b ∈ (o, e) :: F.all, Told d xs uo x addr.toNat b) → ∃ n, ∀ fuel depth, n ≤ fuel → n ≤ depth →
      ∃ zs l s', inlinedAt d fuel depth addr (F.all.length + 1) y c.st = .ok (zs, s') ∧ AreEntries d xs uo x zs l ∧ InlineChain d xs uo x addr.toNat (o, e) F l := by
  have hg := igood_history hok hrefs hc
  obtain ⟨uo, x, o, e, h⟩ := holds_good hok hg hy
  refine ⟨uo, x, o, e, h.isEntry, ?_⟩
  intro F addr hF ht
  obtain ⟨n, hn⟩ := told_all hok hfit hrefs _ ht
  refine ⟨n + searchCost F + 1, fun fuel depth h1 h2 => ?_⟩
  exact inlined_told hok hfit hrefs h.entry.1 (F.all.length + 1) (o, e) F (by omega) hF ht (hn fuel (by omega)) (by omega) y c.st hg.st (ranges_history hok hfit hrefs hc) h

/-- C59. When the inlined functions that have the address are nested, all of them are found, the outermost first. -/
theorem C59_nested_partial {y : DIE} (hy : c.Holds d y) : ∃ uo x o e, IsEntry d xs y uo x o e ∧ ∀ F (addr : BitVec 64), (x.placed uo).KidsOf (o, e) F →
    (∀ b ∈ (o, e) :: F.all, Told d xs uo x addr.toNat b) → Nested d xs uo x addr.toNat F → ∃ n, ∀ fuel depth, n ≤ fuel → n ≤ depth →
      ∃ zs l s', inlinedAt d fuel depth addr (F.all.length + 1) y c.st = .ok (zs, s') ∧ AreEntries d xs uo x zs l ∧
        (∀ b, b ∈ l ↔ HitFrom d xs uo x addr.toNat 0x1d true (o, e) F b) ∧ l.Pairwise (fun a b => a.1 < b.1) := by
  obtain ⟨uo, x, o, e, h, hn⟩ := C59_chain_partial hok hfit hrefs hc hy
  refine ⟨uo, x, o, e, h, ?_⟩
  intro F addr hF ht hnest
  obtain ⟨n, hn⟩ := hn F addr hF ht
  refine ⟨n, fun fuel depth h1 h2 => ?_⟩
  obtain ⟨zs, l, s', k1, k2, k3⟩ := hn fuel depth h1 h2
  obtain ⟨q1, q2⟩ := chain_all hok hfit hrefs (igood_history hok hrefs hc).st (ranges_history hok hfit hrefs hc) h.2.2.1 k3 hF ht hnest
  exact ⟨zs, l, s', k1, k2, q1, q2⟩

end

section
variable {d : Sections} {xs : List DieUnit} {sec : Option (List Byte)} {sets : List ArangeSet} (hok : InfoOk d xs) (hfit : SectionsFit d) (hrefs : RefsOk xs) (hsec : ArangesOk sec sets)
  (hroots : RootsOk d xs) (hag : RangesAgree d xs sets) (hne : xs ≠ []) {a : LClient} (h : LHistory d xs sec a)
include hok hfit hrefs hsec hroots hag hne h

/-- C58. The function of an address is looked for in the unit that has the address: it is the first function (0x2e) there that has the address and is not below an entry that
does not have it. Missing: what is missing in `C57_found_partial` and `C58_entry_partial`. -/
theorem C58_function_partial {uo lo hi : Nat} {x : DieUnit} (hx : (uo, x) ∈ placeUnits 0 xs) (hu : UnitHas d xs sets uo lo hi) {addr : BitVec 64} (h1 : lo ≤ addr.toNat) (h2 : addr.toNat < hi)
    (h3 : ¬ListRange d xs uo lo hi ∨ hi - lo ≤ addr.toNat) {F : Forest (Nat × DieEntry)} (hF : (x.placed uo).KidsOf (uo + x.rootPos, x.tree.root) F)
    (ht : ∀ b ∈ (uo + x.rootPos, x.tree.root) :: F.all, Told d xs uo x addr.toNat b) :
    ∃ n, ∀ fuel depth, n ≤ fuel → n ≤ depth → ∃ r t s, functionAt d sec fuel depth addr a.t a.c.st = .ok (r, t, s) ∧
      FirstOf d xs uo x (HitFrom d xs uo x addr.toNat 0x2e true (uo + x.rootPos, x.tree.root) F) r := by
  obtain ⟨n, hn⟩ := search_told hok hfit hrefs hx hF ht
  refine ⟨n + 1, fun fuel depth g1 g2 => ?_⟩
  have hg := lookup_history hok hfit hrefs hsec hroots hag hne h
  obtain ⟨u, t, s, k1, k2, k3⟩ := C57_found_partial hok hfit hrefs hsec hroots hag hne h hu h1 h2 h3 (fuel := fuel) (by omega)
  obtain ⟨r', t', s', m, l1, l2, _⟩ := lookup_spec hok hfit hrefs hsec hroots hag hne hg addr (fuel := fuel) (by omega)
  rw [k1] at l1; injection l1 with l1; injection l1 with e1 l1; injection l1 with e2 e3
  subst e1; subst e2; subst e3
  obtain ⟨y, s1, b1, b2, b3⟩ := root_good hok l2.1.1 hx k3
  obtain ⟨r, s2, c1, _, _, c2⟩ := hn fuel depth 0x2e true y s1 (by omega) (by omega) b2.1 (l2.2.of_eq b2.2.2) b3
  refine ⟨r, t, s2, ?_, c2.first⟩
  unfold functionAt
  rw [k1, Res.bind_ok]
  simp only
  rw [b1, Res.bind_ok]
  simp only
  rw [c1, Res.bind_ok]

/-- C58. Where no unit has the address, and no root has a list of ranges, there is no function. -/
theorem C58_nowhere (hno : ∀ uo lo hi, ¬ListRange d xs uo lo hi) {addr : BitVec 64} (hout : ∀ uo lo hi, UnitHas d xs sets uo lo hi → ¬(lo ≤ addr.toNat ∧ addr.toNat < hi))
    {fuel depth : Nat} (hf : 1 ≤ fuel) : ∃ t s, functionAt d sec fuel depth addr a.t a.c.st = .ok (none, t, s) := by
  obtain ⟨r, t, s, k1, k2, _⟩ := C57_only hok hfit hrefs hsec hroots hag hne h hno addr hf
  cases r with
  | some u =>
    obtain ⟨_, lo, hi, q1, q2⟩ := k2 u rfl
    exact absurd q2 (hout _ _ _ q1)
  | none =>
    refine ⟨t, s, ?_⟩
    unfold functionAt
    rw [k1, Res.bind_ok]

end

/-! ### A unit with functions in functions -/

/-- The tags are of a unit, a function, a block, an inlined function with others in it, and one with none. -/
def nestDecls : List DieDecl := [⟨1, 0x11, true, [⟨0x11, 0x01, 0⟩, ⟨0x12, 0x05, 0⟩]⟩, ⟨2, 0x2e, true, [⟨0x11, 0x01, 0⟩, ⟨0x12, 0x0b, 0⟩]⟩, ⟨3, 0x0b, true, []⟩,
  ⟨4, 0x1d, true, [⟨0x11, 0x01, 0⟩, ⟨0x12, 0x0b, 0⟩]⟩, ⟨5, 0x1d, false, [⟨0x11, 0x01, 0⟩, ⟨0x12, 0x0b, 0⟩]⟩]
def nestRoot : DieEntry := ⟨⟨1, 0x11, true, [⟨0x11, 0x01, 0⟩, ⟨0x12, 0x05, 0⟩]⟩, [.num 0x1000, .num 0x100]⟩
def nestFunc (a n : Nat) : DieEntry := ⟨⟨2, 0x2e, true, [⟨0x11, 0x01, 0⟩, ⟨0x12, 0x0b, 0⟩]⟩, [.num a, .num n]⟩
def nestBlock : DieEntry := ⟨⟨3, 0x0b, true, []⟩, []⟩
def nestInl (a n : Nat) : DieEntry := ⟨⟨4, 0x1d, true, [⟨0x11, 0x01, 0⟩, ⟨0x12, 0x0b, 0⟩]⟩, [.num a, .num n]⟩
def nestLeaf (a n : Nat) : DieEntry := ⟨⟨5, 0x1d, false, [⟨0x11, 0x01, 0⟩, ⟨0x12, 0x0b, 0⟩]⟩, [.num a, .num n]⟩

def nestUnit : DieUnit := ⟨false, 5, 1, 8, [], 0, nestDecls,
  ⟨nestRoot, some (.node (nestFunc 0x1000 0x20) (.leaf (nestLeaf 0x1000 4) (.node nestBlock (.node (nestInl 0x1008 8) (.leaf (nestLeaf 0x100a 2) .done) .done) .done))
    (.node (nestFunc 0x1020 0x10) .done .done))⟩, []⟩
def nestSections : Sections := ⟨encodeUnits [nestUnit], encodeDecls nestDecls, [], [], [], [], none, none⟩

/-- The children of the first function. -/
def nestKids : Forest (Nat × DieEntry) :=
  .leaf (33, nestLeaf 0x1000 4) (.node (43, nestBlock) (.node (44, nestInl 0x1008 8) (.leaf (54, nestLeaf 0x100a 2) .done) .done) .done)
/-- The children of the root. -/
def nestTop : Forest (Nat × DieEntry) := .node (23, nestFunc 0x1000 0x20) nestKids (.node (67, nestFunc 0x1020 0x10) .done .done)

theorem nest_placed : nestUnit.placed 0 = ⟨(12, nestRoot), some nestTop⟩ := by
  simp [nestUnit, nestTop, nestKids, nestRoot, nestFunc, nestBlock, nestInl, nestLeaf, DieUnit.sizes, DieUnit.rootPos, DieUnit.lengthField,
      DieUnit.header, DieUnit.offSize, DieUnit.placed, DieTree.place, Forest.place, Forest.encode, DieEntry.encode, encodeVals, formKind,
      FormKind.encode, encodeU_small, leBytes_length]

theorem nest_all : (nestUnit.placed 0).all = [(12, nestRoot), (23, nestFunc 0x1000 0x20), (33, nestLeaf 0x1000 4), (43, nestBlock), (44, nestInl 0x1008 8), (54, nestLeaf 0x100a 2),
    (67, nestFunc 0x1020 0x10)] := by
  rw [nest_placed]; rfl

theorem nest_entries {uo : Nat} {x : DieUnit} {o : Nat} {e : DieEntry} : EntryIn [nestUnit] uo x o e ↔
    uo = 0 ∧ x = nestUnit ∧ (o, e) ∈ [(12, nestRoot), (23, nestFunc 0x1000 0x20), (33, nestLeaf 0x1000 4), (43, nestBlock), (44, nestInl 0x1008 8), (54, nestLeaf 0x100a 2),
      (67, nestFunc 0x1020 0x10)] := by
  unfold EntryIn
  rw [placeUnits, placeUnits]
  constructor
  · rintro ⟨h1, h2⟩
    simp only [List.mem_cons, List.not_mem_nil, or_false, Prod.mk.injEq] at h1
    obtain ⟨rfl, rfl⟩ := h1
    rw [nest_all] at h2
    exact ⟨rfl, rfl, h2⟩
  · rintro ⟨rfl, rfl, h⟩
    exact ⟨by simp, by rw [nest_all]; exact h⟩

theorem nest_ok : InfoOk nestSections [nestUnit] ∧ RefsOk [nestUnit] ∧ SectionsFit nestSections := by
  refine ⟨⟨rfl, ?_, ?_, ?_, ?_⟩, ?_, ⟨by decide, by decide, by decide, by decide, (fun _ h => nomatch h), fun _ h => nomatch h⟩⟩
  · intro x hx
    simp only [List.mem_cons, List.not_mem_nil, or_false] at hx
    subst hx
    refine ⟨⟨by decide, fun _ => .inl (by decide), by decide, (fun h => by cases h), by decide, ?_, by decide, ?_⟩, ?_, by decide, (fun h => by cases h)⟩
    · intro a ha
      simp only [nestUnit, nestDecls, List.mem_cons, List.not_mem_nil, or_false] at ha
      rcases ha with rfl | rfl | rfl | rfl | rfl <;> refine ⟨by decide, by decide, ?_⟩ <;> intro b hb <;>
        simp only [List.mem_cons, List.not_mem_nil, or_false] at hb
      all_goals rcases hb with rfl | rfl <;> exact ⟨by decide, by decide, by decide⟩
    · simp [nestUnit, nestDecls, nestRoot, nestFunc, nestBlock, nestInl, nestLeaf, DieUnit.sizes, DieUnit.rootPos, DieUnit.lengthField,
        DieUnit.header, DieUnit.offSize, DieTree.WF, Forest.WF, ValsFit, AttrFits, DieTree.encode, Forest.encode, DieEntry.encode, encodeVals, formKind,
        FormKind.encode, FormKind.Fits, IsLocalRef, encodeU_small, leBytes_length]
    · simp [nestUnit, nestRoot, nestFunc, nestBlock, nestInl, nestLeaf, DieUnit.body, DieUnit.sizes, DieTree.encode, Forest.encode,
        DieUnit.header, DieUnit.offSize, DieEntry.encode, encodeVals, formKind, FormKind.encode, encodeU_small, leBytes_length]
  · intro x hx
    simp only [List.mem_cons, List.not_mem_nil, or_false] at hx
    subst hx; exact ⟨[], by simp [nestUnit, nestSections]⟩
  · simp [nestSections, encodeUnits, nestUnit, nestRoot, nestFunc, nestBlock, nestInl, nestLeaf, DieUnit.encode, DieUnit.body, DieUnit.sizes, DieUnit.lengthField, DieTree.encode, Forest.encode,
      DieUnit.header, DieUnit.offSize, DieEntry.encode, encodeVals, formKind, FormKind.encode, encodeU_small, leBytes_length]
  · simp [nestSections, encodeDecls, nestDecls, DieDecl.encode, AttrDecl.encode, encodeU_small]
  · intro uo x o e he i a v o' ha hv hn hr
    exfalso
    obtain ⟨n, rfl, hr⟩ := hr
    obtain ⟨rfl, rfl, h⟩ := nest_entries.1 he
    have hf : IsLocalRef a.form ∨ a.form = 0x10 := by
      rcases hr with ⟨h, _⟩ | ⟨h, _⟩
      · exact .inl h
      · exact .inr h
    have hm := List.mem_of_getElem? ha
    simp only [List.mem_cons, List.not_mem_nil, or_false, Prod.mk.injEq] at h
    rcases h with ⟨rfl, rfl⟩ | ⟨rfl, rfl⟩ | ⟨rfl, rfl⟩ | ⟨rfl, rfl⟩ | ⟨rfl, rfl⟩ | ⟨rfl, rfl⟩ | ⟨rfl, rfl⟩ <;>
      simp only [nestRoot, nestFunc, nestBlock, nestInl, nestLeaf, List.mem_cons, List.not_mem_nil, or_false] at hm
    all_goals rcases hm with rfl | rfl <;> simp [IsLocalRef] at hf

/-- Low address and size. -/
theorem nest_bounds {c g a n f : Nat} {k : Bool} (hf : f = 0x05 ∨ f = 0x0b) (h : a + n < 2 ^ 64) :
    EntryBounds nestSections nestUnit ⟨⟨c, g, k, [⟨0x11, 0x01, 0⟩, ⟨0x12, f, 0⟩]⟩, [.num a, .num n]⟩ a (a + n) := by
  refine ⟨0, 1, _, _, n, rfl, rfl, .inl rfl, ⟨_, _, rfl, rfl, .const (by decide)⟩, rfl, rfl, ⟨_, _, rfl, rfl, .const ?_⟩, by omega, h, .inr ⟨⟨?_, ?_⟩, rfl⟩⟩ <;> rcases hf with rfl | rfl <;> decide

/-- All entries say whether they have the address, except the block, which says nothing. -/
theorem nest_in {addr : Nat} {o : Nat} {e : DieEntry} {lo hi : Nat} (h : EntryBounds nestSections nestUnit e lo hi) (h1 : lo ≤ addr) (h2 : addr < hi) :
    SaysIn nestSections [nestUnit] 0 nestUnit addr (o, e) := .inl ⟨lo, hi, h, h1, h2⟩
theorem nest_out {addr : Nat} {o : Nat} {e : DieEntry} {lo hi : Nat} (h : EntryBounds nestSections nestUnit e lo hi) (h1 : addr < lo ∨ hi ≤ addr) :
    SaysOut nestSections [nestUnit] 0 nestUnit addr (o, e) := .inl ⟨lo, hi, h, by omega⟩

theorem nest_told (addr : Nat) {a : Nat × DieEntry} (ha : a ∈ (nestUnit.placed 0).all) : Told nestSections [nestUnit] 0 nestUnit addr a := by
  have hb : ∀ {o : Nat} {e : DieEntry} {lo hi : Nat}, EntryBounds nestSections nestUnit e lo hi → e.find 0x55 = none → Told nestSections [nestUnit] 0 nestUnit addr (o, e) := by
    intro o e lo hi h hn
    refine ⟨?_, ?_⟩
    · rcases Decidable.em (lo ≤ addr ∧ addr < hi) with k | k
      · exact .inl (.inl ⟨lo, hi, h, k⟩)
      · exact .inr (.inl (.inl ⟨lo, hi, h, k⟩))
    · rintro l ⟨i, _, _, h, _⟩
      have h : e.find 0x55 = some i := h
      rw [hn] at h; cases h
  rw [nest_all] at ha
  simp only [List.mem_cons, List.not_mem_nil, or_false] at ha
  rcases ha with rfl | rfl | rfl | rfl | rfl | rfl | rfl
  · exact hb (nest_bounds (.inl rfl) (by decide)) rfl
  · exact hb (nest_bounds (.inr rfl) (by decide)) rfl
  · exact hb (nest_bounds (.inr rfl) (by decide)) rfl
  · refine ⟨.inr (.inr ⟨.inl rfl, .nowhere rfl rfl rfl⟩), ?_⟩
    rintro l ⟨i, _, _, h, _⟩
    cases h
  · exact hb (nest_bounds (.inr rfl) (by decide)) rfl
  · exact hb (nest_bounds (.inr rfl) (by decide)) rfl
  · exact hb (nest_bounds (.inr rfl) (by decide)) rfl

theorem nest_kids_top : (nestUnit.placed 0).KidsOf (12, nestRoot) nestTop := by rw [nest_placed]; exact .root
theorem nest_kids_func : (nestUnit.placed 0).KidsOf (23, nestFunc 0x1000 0x20) nestKids := by rw [nest_placed]; exact .under .node

theorem nest_bounds_root : RootBounds nestSections nestUnit 0x1000 0x1100 := by
  refine ⟨nest_bounds (.inl rfl) (by decide), ?_⟩
  intro i b h1 h2
  have e : nestUnit.tree.root.find 0x12 = some 1 := by decide
  rw [e] at h1; injection h1 with h1; subst h1
  injection h2 with h2; subst h2; decide

theorem nest_list {uo lo hi : Nat} : ¬ListRange nestSections [nestUnit] uo lo hi := by
  rintro ⟨x, l, h, ⟨i, _, _, h1, _⟩, _⟩
  simp only [placeUnits, List.mem_cons, List.not_mem_nil, or_false, Prod.mk.injEq] at h
  obtain ⟨rfl, rfl⟩ := h
  cases h1

theorem nest_has {uo lo hi : Nat} : UnitHas nestSections [nestUnit] [] uo lo hi ↔ uo = 0 ∧ lo = 0x1000 ∧ hi = 0x1100 := by
  constructor
  · rintro (⟨x, h1, _⟩ | ⟨x, h1, h2⟩ | h)
    · cases h1
    · simp only [placeUnits, List.mem_cons, List.not_mem_nil, or_false, Prod.mk.injEq] at h1
      obtain ⟨rfl, rfl⟩ := h1
      have hm : (0, nestUnit) ∈ placeUnits 0 [nestUnit] := by simp [placeUnits]
      obtain ⟨u, t, hop⟩ := opened nest_ok.1 hm
      obtain ⟨y, s', _, g2, g3⟩ := root_good nest_ok.1 (igood_history nest_ok.1 nest_ok.2.1 (.start (d := nestSections))).st hm hop.isOpen
      obtain ⟨rfl, rfl⟩ := rootBounds_unique nest_ok.1 nest_ok.2.2 g2.1 g3 nest_bounds_root h2
      exact ⟨rfl, rfl, rfl⟩
    · exact absurd h nest_list
  · rintro ⟨rfl, rfl, rfl⟩
    exact .inr (.inl ⟨nestUnit, by simp [placeUnits], nest_bounds_root⟩)

theorem nest_roots : RootsOk nestSections [nestUnit] := by
  intro uo x h
  simp only [placeUnits, List.mem_cons, List.not_mem_nil, or_false, Prod.mk.injEq] at h
  obtain ⟨rfl, rfl⟩ := h
  exact ⟨by decide, by decide, .inr (.inr ⟨_, _, nest_bounds_root⟩), .inl (by decide)⟩

theorem nest_agree : RangesAgree nestSections [nestUnit] [] := by
  refine ⟨?_, ?_, fun x h => nomatch h⟩
  · intro uo lo hi h
    have h := nest_has.1 h
    omega
  · intro uo lo hi uo' lo' hi' h h'
    have h := nest_has.1 h
    have h' := nest_has.1 h'
    omega

theorem nest_rootPos : nestUnit.rootPos = 12 := by
  have h := nest_placed
  simp only [DieUnit.placed, DieTree.place, Nat.zero_add] at h
  injection h with h _; injection h with h

theorem nest_not_both {a : Nat × DieEntry} (ha : a ∈ (nestUnit.placed 0).all) (addr : BitVec 64) : ¬(SaysIn nestSections [nestUnit] 0 nestUnit addr.toNat a ∧ SaysOut nestSections [nestUnit] 0 nestUnit addr.toNat a) :=
  fun h => says_one nest_ok.1 nest_ok.2.2 nest_ok.2.1 (igood_history nest_ok.1 nest_ok.2.1 (.start (d := nestSections))).st
    (ranges_history nest_ok.1 nest_ok.2.2 nest_ok.2.1 (.start (d := nestSections))) ⟨by simp [placeUnits], ha⟩ (nest_told _ ha) h.1 h.2

/-- C58 applies: the function of 0x100b is the first one. -/
theorem C58_example : ∃ n, ∀ fuel depth, n ≤ fuel → n ≤ depth → ∃ z t s, functionAt nestSections none fuel depth 0x100b ⟨none, false⟩ IState.empty = .ok (some z, t, s) ∧ z.h.off = 23 := by
  have hm : (0, nestUnit) ∈ placeUnits 0 [nestUnit] := by simp [placeUnits]
  have hroot : (0 + nestUnit.rootPos, nestUnit.tree.root) = (12, nestRoot) := by rw [nest_rootPos]; rfl
  obtain ⟨n, hn⟩ := C58_function_partial nest_ok.1 nest_ok.2.2 nest_ok.2.1 (sec := none) (sets := []) ⟨(fun _ h => nomatch h), .inr ⟨rfl, rfl⟩, by decide⟩ nest_roots nest_agree (by decide) .start
    hm (nest_has.2 ⟨rfl, rfl, rfl⟩) (addr := 0x100b) (by decide) (by decide) (.inl nest_list) (F := nestTop) (by rw [hroot]; exact nest_kids_top)
    (by rw [hroot]; exact fun b hb => nest_told _ ((tree_kids_sub nest_kids_top).mem hb))
  rw [hroot] at hn
  refine ⟨n, fun fuel depth h1 h2 => ?_⟩
  obtain ⟨r, t, s, k1, k2⟩ := hn fuel depth h1 h2
  have hin : SaysIn nestSections [nestUnit] 0 nestUnit (0x100b : BitVec 64).toNat (12, nestRoot) := nest_in (nest_bounds (.inl rfl) (by decide)) (by decide) (by decide)
  have hhit : HitFrom nestSections [nestUnit] 0 nestUnit (0x100b : BitVec 64).toNat 0x2e true (12, nestRoot) nestTop (23, nestFunc 0x1000 0x20) := by
    refine .inr ⟨fun h => nest_not_both (by rw [nest_all]; exact List.mem_cons_self) _ ⟨hin, h⟩, .node, rfl, ?_⟩
    exact nest_in (nest_bounds (.inr rfl) (by decide)) (by decide) (by decide)
  rcases k2 with ⟨_, k⟩ | ⟨z, a, rfl, k3, k4, k5⟩
  · exact absurd hhit (k _)
  · refine ⟨z, t, s, k1, ?_⟩
    rw [k3.2.1]
    have h5 : a.1 ≤ 23 := k5 _ hhit
    rcases k4 with ⟨h, _⟩ | ⟨_, h, h', _⟩
    · cases h
    · have hmem := reaches_mem h
      simp only [nestTop, nestKids, Forest.all, Forest.firsts, List.map_cons, List.map_append, List.map_nil, List.nil_append, List.cons_append, List.mem_cons, List.not_mem_nil, or_false] at hmem
      rcases hmem with rfl | rfl | rfl | rfl | rfl | rfl
      all_goals first | rfl | (exfalso; revert h'; decide) | (exfalso; revert h5; decide)

/-- C59 applies: in the first function there are, for 0x100b, two inlined functions, one in the other (and in a block). -/
theorem C59_example : ∃ f c, IHistory nestSections [nestUnit] c ∧ c.Holds nestSections f ∧ f.h.off = 23 ∧
    ∃ n, ∀ fuel depth, n ≤ fuel → n ≤ depth → ∃ y z s, inlinedAt nestSections fuel depth 0x100b 5 f c.st = .ok ([y, z], s) ∧ y.h.off = 44 ∧ z.h.off = 54 := by
  obtain ⟨f, s, h1, h2, h3, h4⟩ := C56_find nest_ok.1 nest_ok.2.1 .start (nest_entries.2 ⟨rfl, rfl, List.mem_cons_of_mem _ List.mem_cons_self⟩ : EntryIn _ 0 nestUnit 23 _)
  refine ⟨f, _, h3, h4, h2.2.1, ?_⟩
  obtain ⟨uo, x, o, e, g1, g2⟩ := C59_nested_partial nest_ok.1 nest_ok.2.2 nest_ok.2.1 h3 h4
  have ho : o = 23 := by rw [← g1.2.1, h2.2.1]
  subst ho
  obtain ⟨rfl, rfl, he⟩ := nest_entries.1 g1.2.2
  simp at he
  subst he
  -- what the entries say
  have hb : SaysIn nestSections [nestUnit] 0 nestUnit (0x100b : BitVec 64).toNat (44, nestInl 0x1008 8) := nest_in (nest_bounds (.inr rfl) (by decide)) (by decide) (by decide)
  have hc : SaysIn nestSections [nestUnit] 0 nestUnit (0x100b : BitVec 64).toNat (54, nestLeaf 0x100a 2) := nest_in (nest_bounds (.inr rfl) (by decide)) (by decide) (by decide)
  have hl : SaysOut nestSections [nestUnit] 0 nestUnit (0x100b : BitVec 64).toNat (33, nestLeaf 0x1000 4) := nest_out (nest_bounds (.inr rfl) (by decide)) (.inr (by decide))
  have hf : SaysIn nestSections [nestUnit] 0 nestUnit (0x100b : BitVec 64).toNat (23, nestFunc 0x1000 0x20) := nest_in (nest_bounds (.inr rfl) (by decide)) (by decide) (by decide)
  have hblock : ¬SaysOut nestSections [nestUnit] 0 nestUnit (0x100b : BitVec 64).toNat (43, nestBlock) := by
    rintro (⟨lo, hi, ⟨i, _, _, _, _, h, _⟩, _⟩ | ⟨l, ⟨i, _, _, h, _⟩, _⟩) <;> cases h
  have hall : ∀ a, Hit nestSections [nestUnit] 0 nestUnit (0x100b : BitVec 64).toNat 0x1d nestKids a ↔ a = (44, nestInl 0x1008 8) ∨ a = (54, nestLeaf 0x100a 2) := by
    intro a
    constructor
    · rintro ⟨h, h', h''⟩
      have hmem := reaches_mem h
      simp only [nestKids, Forest.all, Forest.firsts, List.map_cons, List.map_append, List.map_nil, List.nil_append, List.append_nil, List.mem_cons, List.not_mem_nil, or_false] at hmem
      rcases hmem with rfl | rfl | rfl | rfl
      · exact absurd ⟨h'', hl⟩ (nest_not_both (by rw [nest_all]; simp) _)
      · cases h'
      · exact .inl rfl
      · exact .inr rfl
    · rintro (rfl | rfl)
      · exact ⟨.afterLeaf (.under hblock .node), rfl, hb⟩
      · exact ⟨.afterLeaf (.under hblock (.under (fun h => nest_not_both (by rw [nest_all]; simp) _ ⟨hb, h⟩) .leaf)), rfl, hc⟩
  have hfrom : ∀ a, HitFrom nestSections [nestUnit] 0 nestUnit (0x100b : BitVec 64).toNat 0x1d true (23, nestFunc 0x1000 0x20) nestKids a ↔ a = (44, nestInl 0x1008 8) ∨ a = (54, nestLeaf 0x100a 2) := by
    intro a
    rw [← hall]
    constructor
    · rintro (⟨h, _⟩ | ⟨_, h⟩)
      · cases h
      · exact h
    · exact fun h => .inr ⟨fun h => nest_not_both (by rw [nest_all]; simp) _ ⟨hf, h⟩, h⟩
  have hnest : Nested nestSections [nestUnit] 0 nestUnit (0x100b : BitVec 64).toNat nestKids := by
    intro b c h1 h2 h3
    rcases (hall b).1 h1 with rfl | rfl <;> rcases (hall c).1 h2 with rfl | rfl
    · exact absurd h3 (by decide)
    · exact ⟨_, .afterLeaf (.under .node), by simp [Forest.all, Forest.firsts]⟩
    · exact absurd h3 (by decide)
    · exact absurd h3 (by decide)
  obtain ⟨n, hn⟩ := g2 nestKids 0x100b nest_kids_func (fun b hb => nest_told _ ((tree_kids_sub nest_kids_func).mem hb)) hnest
  refine ⟨n, fun fuel depth h1 h2 => ?_⟩
  obtain ⟨zs, l, s', k1, k2, k3, k4⟩ := hn fuel depth h1 h2
  have k3 : ∀ a, a ∈ l ↔ a = (44, nestInl 0x1008 8) ∨ a = (54, nestLeaf 0x100a 2) := fun a => (k3 a).trans (hfrom a)
  -- the list
  have hlist : l = [(44, nestInl 0x1008 8), (54, nestLeaf 0x100a 2)] := by
    have q1 := (k3 _).2 (.inl rfl)
    have q2 := (k3 _).2 (.inr rfl)
    rcases l with _ | ⟨a, _ | ⟨b, _ | ⟨c, l⟩⟩⟩
    · cases q1
    · simp only [List.mem_cons, List.not_mem_nil, or_false] at q1 q2
      rw [← q1] at q2; cases q2
    · have p := k4
      simp only [List.pairwise_cons, List.mem_cons, List.not_mem_nil, or_false, forall_eq] at p
      rcases (k3 a).1 (by simp) with rfl | rfl <;> rcases (k3 b).1 (by simp) with rfl | rfl <;> simp at p ⊢
    · have p := k4
      simp only [List.pairwise_cons, List.mem_cons] at p
      have p1 := p.1 b (.inl rfl)
      have p2 := p.2.1 c (.inl rfl)
      rcases (k3 a).1 (by simp) with rfl | rfl <;> rcases (k3 b).1 (by simp) with rfl | rfl <;> rcases (k3 c).1 (by simp) with rfl | rfl <;> simp at p1 p2
  subst hlist
  rcases zs with _ | ⟨y, _ | ⟨z, _ | ⟨w, zs⟩⟩⟩
  · exact absurd k2 id
  · exact absurd k2.2 id
  · exact ⟨y, z, s', k1, k2.1.2.1, k2.2.1.2.1⟩
  · exact absurd k2.2.2 id

/-- `C58_not_end` applies: at 0x234a the first function of `rangeUnit` ends. The second has it, from 0x2345 to 0x2355; the first one is found. -/
theorem C58_not_end_example : EntryBounds rangeSections rangeUnit ⟨rangeFlat, [.num 1, .num 16]⟩ 0x2345 0x2355 ∧ ∃ z c, IHistory rangeSections [rangeUnit] c ∧ z.h.off = 29 ∧
    ∃ s', findEntry rangeSections 1 0x234a 0x2e 1 z false c.st = .ok (some z, s') := by
  refine ⟨C26_example.2, ?_⟩
  obtain ⟨z, s, h1, h2, h3, h4⟩ := C56_find range_ok.1 range_ok.2.1 .start (range_entries.2 ⟨rfl, rfl, List.mem_cons_of_mem _ List.mem_cons_self⟩ : EntryIn _ 0 rangeUnit 29 _)
  refine ⟨z, _, h3, h2.2.1, ?_⟩
  obtain ⟨uo, x, o, e, g1, g2⟩ := C58_not_end range_ok.1 range_ok.2.2 range_ok.2.1 h3 h4
  have ho : o = 29 := by rw [← g1.2.1, h2.2.1]
  subst ho
  obtain ⟨rfl, rfl, he⟩ := range_entries.1 g1.2.2
  simp at he
  subst he
  exact g2 _ C26_example.1 (.inl (by decide)) 0x234a ⟨(0x2345, 0x234a), by simp, by decide, by decide⟩ 1 1 (by decide) (by decide)

end Pstack.Props
