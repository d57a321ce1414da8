import Verif.Model.Source
import Verif.Spec.Source
import Verif.Props.StackText
import Verif.Props.Lookup
/-
Lemmas for C91: the line and the function of an address.
-/
namespace Pstack.Props
open Pstack.Reader Pstack.Spec Pstack.Dwarf Pstack.Die Pstack.Args Pstack.Lines Pstack.StackText

section
variable {d : Sections} {xs : List DieUnit} (hok : InfoOk d xs) (hfit : SectionsFit d) (hrefs : RefsOk xs)
include hok hfit hrefs

/-- What is known stays right. -/
theorem LGood.keep {sets : List ArangeSet} {a : LClient} (hg : LGood d xs sets a) {s : IState} (hk : KeptR d xs a.c.st s) (hr : RangesRight d xs s) :
    LGood d xs sets ⟨⟨s, a.c.dies, a.c.iters⟩, a.t⟩ := ⟨igood_ext hg.good hk, hr, hg.map, hg.fresh⟩

omit hfit hrefs in
/-- `getLines`, if the unit has a line table. -/
theorem unitTable_some {q : ObjDwarf} (hq : q.d = d) {sec : List Byte} (hsec : q.line = some sec) (hw : sec.length < W64) {x : DieUnit} {t : LineTable} (hl : LinesOf d sec x t) (hp : t.Plain Supported)
    {s : IState} (hs : ISt d xs s) {uo : Nat} (hx : (uo, x) ∈ placeUnits 0 xs) {u : Die.Unit} (hu : openUnit d.info d.abbr uo = .ok u) {fuel : Nat} (h1 : 1 ≤ fuel) :
    ∃ rows s', unitTable q fuel u s = .ok (some (headerOf t, rows), s') ∧ Each RowMatches rows t.rows ∧ Kept d xs s s' := by
  obtain ⟨l1, l2, l3, i, a, v, n, rest, l4, l5, l6, l7, l8⟩ := hl
  obtain ⟨p1, p2, p3, p4⟩ := hp
  obtain ⟨y, s1, g1, g2, g3⟩ := root_good hok hs hx hu
  obtain ⟨r, r1, r2, _⟩ := good_raw hok g2.1 g3
  obtain ⟨w, w1, w2⟩ := toInt_spec hok g2.1 g3 l5 l6 l7
  have hn : w.toNat = n := by
    have h2 := BitVec.toInt_eq_toNat_cond w
    have h3 := w.isLt
    rw [w2] at h2
    change (n : Int) = _ at h2
    split at h2 <;> omega
  obtain ⟨u', T, hop⟩ := opened hok hx
  have : u' = u := by have := hop.isOpen; rw [hu] at this; injection this with this; exact this.symm
  subst this
  obtain ⟨rows, hb, hrows⟩ := build_table sec hw ⟨u'.dwarfLen, d.lineStr, d.str, q.strx⟩ t l2 (by
    intro h5
    have h6 := l3 h5
    show u'.dwarfLen = _
    rw [hop.sizes.len, if_neg (by simp only [DieUnit.sizes]; omega), LineTable.width, h6.1]
    rfl) p4 n rest l8 p1 p2 p3
  refine ⟨rows, s1, ?_, hrows, g2⟩
  unfold unitTable tableAt
  rw [g1, Res.bind_ok]
  simp only
  rw [r1, Res.bind_ok, if_pos (by
    rw [r2]
    unfold isUnitTag at l1
    simp only [Bool.or_eq_true, decide_eq_true_eq] at l1
    exact l1.symm)]
  rw [hq, getAttr_own hok g2.1 g3 l4 h1 false, Res.bind_ok]
  simp only
  rw [w1, Res.bind_ok, hsec, hn]
  simp only
  rw [hb]
  rfl

omit hfit hrefs in
/-- `getLines`, if it has none. -/
theorem unitTable_none {q : ObjDwarf} (hq : q.d = d) {x : DieUnit} (hn : x.tree.root.find 0x10 = none ∨ ¬isUnitTag x.tree.root.decl.tag) (h31 : x.tree.root.find 0x31 = none)
    (h47 : x.tree.root.find 0x47 = none) {s : IState} (hs : ISt d xs s) {uo : Nat} (hx : (uo, x) ∈ placeUnits 0 xs) {u : Die.Unit} (hu : openUnit d.info d.abbr uo = .ok u) {fuel : Nat} (h1 : 1 ≤ fuel) :
    ∃ s', unitTable q fuel u s = .ok (none, s') ∧ Kept d xs s s' := by
  obtain ⟨y, s1, g1, g2, g3⟩ := root_good hok hs hx hu
  obtain ⟨r, r1, r2, _⟩ := good_raw hok g2.1 g3
  refine ⟨s1, ?_, g2⟩
  unfold unitTable
  rw [g1, Res.bind_ok]
  simp only
  rw [r1, Res.bind_ok]
  by_cases ht : r.type.tag = 0x3c ∨ r.type.tag = 0x11
  · rw [if_pos ht]
    rcases hn with hn | hn
    · rw [hq, getAttr_no hok g2.1 g3 hn h31 h47 h1 false, Res.bind_ok]
    · exfalso
      apply hn
      rw [r2] at ht
      unfold isUnitTag
      simp only [Bool.or_eq_true, decide_eq_true_eq]
      exact ht.symm
  · rw [if_neg ht]

omit hfit hrefs in
/-- `getLines`, if there is no section with lines. -/
theorem unitTable_empty {q : ObjDwarf} (hq : q.d = d) (hsec : q.line = none) {x : DieUnit} {i : Nat} {a : AttrDecl} {v : AttrVal} {z : Int} (h1 : x.tree.root.find 0x10 = some i)
    (h2 : x.tree.root.decl.attrs[i]? = some a) (h3 : x.tree.root.vals[i]? = some v) (h4 : HasInt x a v z) {s : IState} (hs : ISt d xs s) {uo : Nat} (hx : (uo, x) ∈ placeUnits 0 xs)
    {u : Die.Unit} (hu : openUnit d.info d.abbr uo = .ok u) {fuel : Nat} (hf : 1 ≤ fuel) :
    ∃ r s', unitTable q fuel u s = .ok (r, s') ∧ (r = none ∨ r = some noTable) ∧ Kept d xs s s' := by
  obtain ⟨y, s1, g1, g2, g3⟩ := root_good hok hs hx hu
  obtain ⟨r, r1, r2, _⟩ := good_raw hok g2.1 g3
  obtain ⟨w, w1, w2⟩ := toInt_spec hok g2.1 g3 h2 h3 h4
  by_cases ht : r.type.tag = 0x3c ∨ r.type.tag = 0x11
  · refine ⟨some noTable, s1, ?_, .inr rfl, g2⟩
    unfold unitTable tableAt
    rw [g1, Res.bind_ok]
    simp only
    rw [r1, Res.bind_ok, if_pos ht, hq, getAttr_own hok g2.1 g3 h1 hf false, Res.bind_ok]
    simp only
    rw [w1, Res.bind_ok, hsec]
    rfl
  · refine ⟨none, s1, ?_, .inl rfl, g2⟩
    unfold unitTable
    rw [g1, Res.bind_ok]
    simp only
    rw [r1, Res.bind_ok, if_neg ht]

end

/-- The line of a row. -/
theorem tableSource_row {t : LineTable} {lineStr str : List Byte} (hwf : t.WF lineStr str) {rows : List LineState} (hr : Each RowMatches rows t.rows) (he : t.Ended) {detail : Bool} {addr : BitVec 64} {p : SourceLine}
    (h : LineFor t detail addr.toNat p) : ∃ a, tableSource detail addr (headerOf t, rows) = .ok [a] ∧ SrcIs a p := by
  obtain ⟨i, r, f, dir, h1, h2, h3, h4, h5, h6, h7, h8, h9⟩ := h
  rcases findRow_spec addr rows t.rows hr he.1 he.2 with ⟨k, x, hk, hck, hkf, hf⟩ | ⟨hno, _⟩
  · have hik : i = k := by
      rcases Nat.lt_trichotomy i k with h | h | h
      · exact absurd h1 (hkf i h)
      · exact h
      · exact absurd hck (h2 k h)
    subst hik
    obtain ⟨r', hr', hm⟩ := each_get hr i r h3
    rw [hk] at hr'
    cases hr'
    refine ⟨(fileName detail dir f.name, x.line), ?_, ?_, ?_⟩
    · unfold tableSource sourceOf
      have ef : (headerOf t).files[x.file]? = some ⟨f.name, BitVec.ofNat 32 f.dir⟩ := by
        rw [hm.file]; exact fileTable_file _ _ _ h4
      have ed : (headerOf t).directories[(BitVec.ofNat 32 f.dir).toNat]? = some dir := by
        rw [BitVec.toNat_ofNat, Nat.mod_eq_of_lt (dir_small hwf.tables h4 h5)]; exact h5
      simp only
      rw [hf, Res.bind_ok]
      simp only
      rw [ef]
      simp only
      rw [ed]
      rfl
    · rw [h6]; rfl
    · show x.line.toInt = p.line
      rw [hm.line, h7, BitVec.toInt_ofInt]
      exact Int.bmod_eq_of_le (by omega) (by omega)
  · exact absurd h1 (hno i)

theorem tableSource_none {t : LineTable} {rows : List LineState} (hr : Each RowMatches rows t.rows) (he : t.Ended) (detail : Bool) {addr : BitVec 64} (h : ∀ i, ¬RowCovers t.rows addr.toNat i) :
    tableSource detail addr (headerOf t, rows) = .ok [] := by
  rcases findRow_spec addr rows t.rows hr he.1 he.2 with ⟨i, r, _, hc, _⟩ | ⟨_, hf⟩
  · exact absurd hc (h i)
  · unfold tableSource sourceOf
    simp only
    rw [hf, Res.bind_ok]
    rfl

section
variable {q : ObjDwarf} {xs : List DieUnit} (hob : ObjOk q xs) {sec : Option (List Byte)} {sets : List ArangeSet} (hsec : ArangesOk sec sets)
  (hroots : RootsOk q.d xs) (hag : RangesAgree q.d xs sets) (hne : xs ≠ [])
include hob hsec hroots hag hne

/-- The unit of an address, and what is known then. -/
theorem unitAt_found {a : LClient} (hg : LGood q.d xs sets a) {addr : BitVec 64} {uo : Nat} {x : DieUnit} (h : UnitAt q.d xs sets addr.toNat uo x) {fuel : Nat} (hf : 1 ≤ fuel) :
    ∃ u t s, lookupUnit q.d sec fuel addr a.t a.c.st = .ok (some u, t, s) ∧ openUnit q.d.info q.d.abbr uo = .ok u ∧ KeptR q.d xs a.c.st s ∧ LGood q.d xs sets ⟨⟨s, a.c.dies, a.c.iters⟩, t⟩ := by
  obtain ⟨_, lo, hi, h1, h2, h3, h4⟩ := h
  obtain ⟨u, t, s, k1, _, k3⟩ := lookup_found hob.ok hob.fit hob.refs hsec hroots hag hne hg h1 h2 h3 h4 hf
  obtain ⟨r', t', s', m, l1, l2, l3, l4, _⟩ := lookup_spec hob.ok hob.fit hob.refs hsec hroots hag hne hg addr hf
  rw [k1] at l1; injection l1 with l1; injection l1 with e1 l1; injection l1 with e2 e3
  subst e1; subst e2; subst e3
  refine ⟨u, t, s, k1, k3, l2.1, igood_ext hg.good l2.1, l2.2, ?_, ?_⟩
  · intro m' hm
    simp only at hm
    rw [l3] at hm; injection hm with hm; subst hm; exact l4
  · intro hm
    simp only at hm
    rw [l3] at hm; cases hm

theorem unitAt_none {a : LClient} (hg : LGood q.d xs sets a) {addr : BitVec 64} (h : NoUnitAt q.d xs sets addr.toNat) {fuel : Nat} (hf : 1 ≤ fuel) :
    ∃ t s, lookupUnit q.d sec fuel addr a.t a.c.st = .ok (none, t, s) ∧ KeptR q.d xs a.c.st s ∧ LGood q.d xs sets ⟨⟨s, a.c.dies, a.c.iters⟩, t⟩ := by
  obtain ⟨r, t, s, k1, k2, _⟩ := lookup_only hob.ok hob.fit hob.refs hsec hroots hag hne hg h.1 addr hf
  cases r with
  | some u =>
    obtain ⟨_, lo, hi, q1, q2⟩ := k2 u rfl
    exact absurd q2 (h.2 _ _ _ q1)
  | none =>
    obtain ⟨r', t', s', m, l1, l2, l3, l4, _⟩ := lookup_spec hob.ok hob.fit hob.refs hsec hroots hag hne hg addr hf
    rw [k1] at l1; injection l1 with l1; injection l1 with e1 l1; injection l1 with e2 e3
    subst e1; subst e2; subst e3
    refine ⟨t, s, k1, l2.1, igood_ext hg.good l2.1, l2.2, ?_, ?_⟩
    · intro m' hm
      simp only at hm
      rw [l3] at hm; injection hm with hm; subst hm; exact l4
    · intro hm
      simp only at hm
      rw [l3] at hm; cases hm

/-- `functionAt`. -/
theorem function_located {addr : BitVec 64} {r : Option EntryRef} (h : FunctionOf q.d xs sets addr.toNat r) :
    ∃ m, ∀ fuel, m ≤ fuel → ∀ a, LGood q.d xs sets a → ∃ y t s, functionAt q.d sec fuel fuel addr a.t a.c.st = .ok (y, t, s) ∧ KeptR q.d xs a.c.st s ∧ LGood q.d xs sets ⟨⟨s, a.c.dies, a.c.iters⟩, t⟩ ∧
      DieIs q.d xs s y r := by
  have key : ∀ {uo x F}, UnitAt q.d xs sets addr.toNat uo x → (x.placed uo).KidsOf (x.rootAt uo) F → (∀ b ∈ x.rootAt uo :: F.all, Told q.d xs uo x addr.toNat b) →
      ∃ m, ∀ fuel, m ≤ fuel → ∀ a, LGood q.d xs sets a → ∃ y t s, functionAt q.d sec fuel fuel addr a.t a.c.st = .ok (y, t, s) ∧ KeptR q.d xs a.c.st s ∧ LGood q.d xs sets ⟨⟨s, a.c.dies, a.c.iters⟩, t⟩ ∧
        FirstGood q.d xs s uo x (HitFrom q.d xs uo x addr.toNat 0x2e true (x.rootAt uo) F) y := by
    intro uo x F h1 h2 h3
    obtain ⟨n, hn⟩ := search_told hob.ok hob.fit hob.refs h1.1 h2 h3
    refine ⟨n + 1, fun fuel hf a hg => ?_⟩
    obtain ⟨u, t, s, k1, k2, k3, k4⟩ := unitAt_found hob hsec hroots hag hne hg h1 (fuel := fuel) (by omega)
    obtain ⟨y, s1, b1, b2, b3⟩ := root_good hob.ok k3.1 h1.1 k2
    obtain ⟨r, s2, c1, c2, c3, c4⟩ := hn fuel fuel 0x2e true y s1 (by omega) (by omega) b2.1 (k4.ranges.of_eq b2.2.2) b3
    have hk := k3.trans (b2.toR.trans c2)
    refine ⟨r, t, s2, ?_, hk, LGood.keep hob.ok hob.fit hob.refs k4 (b2.toR.trans c2) c3, c4⟩
    unfold functionAt
    rw [k1, Res.bind_ok]
    simp only
    rw [b1, Res.bind_ok]
    simp only
    rw [c1, Res.bind_ok]
  cases h with
  | nowhere h =>
    refine ⟨1, fun fuel hf a hg => ?_⟩
    obtain ⟨t, s, k1, k2, k3⟩ := unitAt_none hob hsec hroots hag hne hg h hf
    refine ⟨none, t, s, ?_, k2, k3, trivial⟩
    unfold functionAt
    rw [k1, Res.bind_ok]
  | @found uo x F b h1 h2 h3 h4 h5 =>
    obtain ⟨m, hm⟩ := key h1 h2 h3
    refine ⟨m, fun fuel hf a hg => ?_⟩
    obtain ⟨y, t, s, k1, k2, k3, k4⟩ := hm fuel hf a hg
    refine ⟨y, t, s, k1, k2, k3, ?_⟩
    rcases k4 with ⟨_, h⟩ | ⟨z, c, rfl, c1, c2, c3⟩
    · exact absurd h4 (h _)
    · have he : c.1 = b.1 := Nat.le_antisymm (c3 _ h4) (h5 _ c2)
      have hm1 : ∀ {e : Nat × DieEntry}, HitFrom q.d xs uo x addr.toNat 0x2e true (x.rootAt uo) F e → e ∈ (x.placed uo).all := by
        rintro e (⟨h, _⟩ | ⟨_, h, _⟩)
        · cases h
        · exact (tree_kids_sub h2).mem (List.mem_cons_of_mem _ (reaches_mem h))
      have m1 := hm1 c2
      have m2 := hm1 h4
      obtain ⟨co, ce⟩ := c
      obtain ⟨bo, be⟩ := b
      simp only at he
      subst he
      cases placed_inj m1 m2
      exact c1
  | @missing uo x F h1 h2 h3 h4 =>
    obtain ⟨m, hm⟩ := key h1 h2 h3
    refine ⟨m, fun fuel hf a hg => ?_⟩
    obtain ⟨y, t, s, k1, k2, k3, k4⟩ := hm fuel hf a hg
    refine ⟨y, t, s, k1, k2, k3, ?_⟩
    rcases k4 with ⟨rfl, _⟩ | ⟨z, c, rfl, c1, c2, c3⟩
    · trivial
    · exact absurd c2 (h4 _)

/-- `sourceFromAddr`. -/
theorem source_located {detail : Bool} {addr : BitVec 64} {r : Option SourceLine} (h : SourceOf Supported q.d xs sets q.line detail addr.toNat r) :
    ∃ m, ∀ fuel, m ≤ fuel → ∀ a, LGood q.d xs sets a → ∃ l t s, sourceFromAddr q sec fuel detail addr a.t a.c.st = .ok (l, t, s) ∧ l.length ≤ 1 ∧ KeptR q.d xs a.c.st s ∧
      LGood q.d xs sets ⟨⟨s, a.c.dies, a.c.iters⟩, t⟩ ∧ SourceIs l r := by
  -- in a unit
  have key : ∀ {uo x}, UnitAt q.d xs sets addr.toNat uo x → Told q.d xs uo x addr.toNat (x.rootAt uo) →
      (SaysOut q.d xs uo x addr.toNat (x.rootAt uo) ∧ r = none ∨
        ∀ fuel, 1 ≤ fuel → ∀ u s, ISt q.d xs s → openUnit q.d.info q.d.abbr uo = .ok u → ∃ T s', unitTable q fuel u s = .ok (T, s') ∧ Kept q.d xs s s' ∧
          (T = none ∧ r = none ∨ ∃ T' l, T = some T' ∧ tableSource detail addr T' = .ok l ∧ l.length ≤ 1 ∧ SourceIs l r ∧ (SaysOut q.d xs uo x addr.toNat (x.rootAt uo) → r = none))) →
      ∃ m, ∀ fuel, m ≤ fuel → ∀ a, LGood q.d xs sets a → ∃ l t s, sourceFromAddr q sec fuel detail addr a.t a.c.st = .ok (l, t, s) ∧ l.length ≤ 1 ∧ KeptR q.d xs a.c.st s ∧
        LGood q.d xs sets ⟨⟨s, a.c.dies, a.c.iters⟩, t⟩ ∧ SourceIs l r := by
    intro uo x h1 h2 h3
    obtain ⟨n, hn⟩ := told_one hob.ok hob.fit hob.refs (d := q.d) h2
    refine ⟨n + 1, fun fuel hf a hg => ?_⟩
    obtain ⟨u, t, s, k1, k2, k3, k4⟩ := unitAt_found hob hsec hroots hag hne hg h1 (fuel := fuel) (by omega)
    obtain ⟨y, s1, b1, b2, b3⟩ := root_good hob.ok k3.1 h1.1 k2
    have hr1 := k4.ranges.of_eq b2.2.2
    obtain ⟨s2, c1⟩ := hn fuel (by omega) y s1 b2.1 hr1 b3
    have c2 := containsAddress_keep hob.ok hob.refs b2.1 ⟨uo, x, _, _, b3⟩ c1
    have c3 := containsAddress_right hob.ok hob.fit hob.refs b2.1 hr1 b3 c1
    have k5 := b2.toR.trans c2
    unfold sourceFromAddr unitSource
    rw [k1, Res.bind_ok]
    simp only
    rw [b1, Res.bind_ok]
    simp only
    rw [c1, Res.bind_ok]
    simp only
    by_cases hno : sayOf q.d xs uo x addr.toNat (x.rootAt uo) = .no
    · have hout : SaysOut q.d xs uo x addr.toNat (x.rootAt uo) := by
        unfold sayOf at hno
        split at hno
        · cases hno
        · split at hno
          · assumption
          · cases hno
      have hr : r = none := by
        rcases h3 with h3 | h3
        · exact h3.2
        · obtain ⟨T, s', _, _, h | ⟨_, _, _, _, _, _, h⟩⟩ := h3 fuel (by omega) u s k3.1 k2
          · exact h.2
          · exact h hout
      subst hr
      rw [if_pos hno, Res.bind_ok]
      exact ⟨[], t, s2, rfl, by decide, k3.trans k5, LGood.keep hob.ok hob.fit hob.refs k4 k5 c3, trivial⟩
    · rw [if_neg hno]
      rcases h3 with h3 | h3
      · exfalso
        apply hno
        unfold sayOf
        rw [if_neg (fun h' => says_one hob.ok hob.fit hob.refs b2.1 hr1 b3.entry h2 h' h3.1), if_pos h3.1]
      · obtain ⟨T, s', t1, t2, t3⟩ := h3 fuel (by omega) u s2 c2.1 k2
        have hg' : LGood q.d xs sets ⟨⟨s', a.c.dies, a.c.iters⟩, t⟩ := LGood.keep hob.ok hob.fit hob.refs k4 (k5.trans t2.toR) (c3.of_eq t2.2.2)
        rw [t1, Res.bind_ok]
        rcases t3 with ⟨rfl, rfl⟩ | ⟨T', l, rfl, t4, t5, t6, _⟩
        · simp only [Res.bind_ok]
          exact ⟨[], t, s', rfl, by decide, (k3.trans k5).trans t2.toR, hg', trivial⟩
        · simp only
          rw [t4]
          simp only [Res.bind_ok]
          exact ⟨l, t, s', rfl, t5, (k3.trans k5).trans t2.toR, hg', t6⟩
  cases h with
  | nowhere h =>
    refine ⟨1, fun fuel hf a hg => ?_⟩
    obtain ⟨t, s, k1, k2, k3⟩ := unitAt_none hob hsec hroots hag hne hg h hf
    refine ⟨[], t, s, ?_, by decide, k2, k3, trivial⟩
    unfold sourceFromAddr
    rw [k1, Res.bind_ok]
  | outside h1 h2 h3 => exact key h1 h2 (.inl ⟨h3, rfl⟩)
  | noTable h1 h2 h3 =>
    refine key h1 h2 (.inr fun fuel hf u s hs hu => ?_)
    obtain ⟨g31, g47, _⟩ := hroots _ _ h1.1
    obtain ⟨s', k1, k2⟩ := unitTable_none hob.ok rfl h3 g31 g47 hs h1.1 hu hf
    exact ⟨none, s', k1, k2, .inl ⟨rfl, rfl⟩⟩
  | noSection h1 h2 h3 h4 h5 h6 h7 =>
    refine key h1 h2 (.inr fun fuel hf u s hs hu => ?_)
    obtain ⟨T, s', k1, k2, k3⟩ := unitTable_empty hob.ok rfl h3 h4 h5 h6 h7 hs h1.1 hu hf
    refine ⟨T, s', k1, k3, ?_⟩
    rcases k2 with rfl | rfl
    · exact .inl ⟨rfl, rfl⟩
    · exact .inr ⟨_, [], rfl, rfl, by decide, trivial, fun _ => rfl⟩
  | noRow h1 h2 h3 h4 h5 h6 h7 h8 =>
    refine key h1 h2 (.inr fun fuel hf u s hs hu => ?_)
    obtain ⟨rows, s', k1, k2, k3⟩ := unitTable_some hob.ok rfl h4 (hob.line _ h4) h5 h6 hs h1.1 hu hf
    exact ⟨_, s', k1, k3, .inr ⟨_, [], rfl, tableSource_none k2 h7 detail h8, by decide, trivial, fun _ => rfl⟩⟩
  | row h1 h2 h3 h4 h5 h6 h7 h8 =>
    refine key h1 h2 (.inr fun fuel hf u s hs hu => ?_)
    obtain ⟨rows, s', k1, k2, k3⟩ := unitTable_some hob.ok rfl h4 (hob.line _ h4) h5 h6 hs h1.1 hu hf
    obtain ⟨b, b1, b2⟩ := tableSource_row h5.2.1 k2 h7 h8
    exact ⟨_, s', k1, k3, .inr ⟨_, [b], rfl, b1, Nat.le_refl _, b2, fun h => absurd h h3⟩⟩

end

end Pstack.Props
