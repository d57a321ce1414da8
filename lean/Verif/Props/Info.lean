import Verif.Proof.InfoKeep
import Verif.Props.Die
/-
Property theorems C25, C56: the units of .debug_info, references between entries and attributes inherited by them.

`xs` are the units of the section (`InfoOk`, Spec/Info.lean). A program has done anything with them (`IHistory`).
-/
namespace Pstack.Props
open Pstack.Reader Pstack.Spec Pstack.Dwarf Pstack.Die

section
variable {d : Sections} {xs : List DieUnit} (hok : InfoOk d xs) (hrefs : RefsOk xs) {c : IClient} (hc : IHistory d xs c)
include hok hrefs hc

/-- C25. Every `DIE` a program has is an entry of a unit, and an attribute the entry has itself is found there, with its name, form and value. What is
missing: offsets of half the possible size and more (`C25_not_offset`, see `Means`), forms that cannot be read (`C23_not_forms`). -/
theorem C25_own_partial {y : DIE} (hy : c.Holds d y) : ∃ uo x o e, IsEntry d xs y uo x o e ∧ ∀ name i, e.find name = some i → ∀ fuel isLocal, 1 ≤ fuel →
    getAttr d fuel y name isLocal c.st = .ok (some ⟨y, i⟩, c.st) ∧ ShowsAttr d c.st ⟨y, i⟩ x e i := by
  have hg := igood_history hok hrefs hc
  obtain ⟨uo, x, o, e, h⟩ := holds_good hok hg hy
  refine ⟨uo, x, o, e, h.isEntry, ?_⟩
  intro name i hi fuel isLocal hf
  obtain ⟨f, rfl⟩ : ∃ f, fuel = f + 1 := ⟨fuel - 1, by omega⟩
  obtain ⟨b, hb, _⟩ := find_at hi
  refine ⟨?_, attr_shows hok hg.st h hb⟩
  rw [getAttr, own_spec hok hg.st h, Res.bind_ok, hi]
  rfl

/-- C25. An attribute that the entry does not have itself is not found if it was asked for in this entry only, and never when it is one of those that are not
inherited: DW_AT_declaration and the references themselves. -/
theorem C25_local {y : DIE} (hy : c.Holds d y) : ∃ uo x o e, IsEntry d xs y uo x o e ∧ ∀ name, e.find name = none → ∀ fuel isLocal, 1 ≤ fuel →
    (isLocal = true ∨ name = 0x3c ∨ name = 0x31 ∨ name = 0x47) → getAttr d fuel y name isLocal c.st = .ok (none, c.st) := by
  have hg := igood_history hok hrefs hc
  obtain ⟨uo, x, o, e, h⟩ := holds_good hok hg hy
  refine ⟨uo, x, o, e, h.isEntry, ?_⟩
  intro name hi fuel isLocal hf hl
  obtain ⟨f, rfl⟩ : ∃ f, fuel = f + 1 := ⟨fuel - 1, by omega⟩
  rw [getAttr, own_spec hok hg.st h, Res.bind_ok, hi]
  simp only [Option.map_none]
  rw [if_pos hl]

/-- C25. Any other attribute is the one the entry inherits, through any number of references within the unit and between units; if there is none, none is found. (The same values are missing. References in a
circle have no end, `C25_not_cycle`.) -/
theorem C25_inherited_partial {y : DIE} (hy : c.Holds d y) : ∃ uo x o e, IsEntry d xs y uo x o e ∧ ∀ name r, name ≠ 0x3c → name ≠ 0x31 → name ≠ 0x47 →
    Inherits xs name uo o e r → ∃ n, ∀ fuel, n ≤ fuel → ∃ a s', getAttr d fuel y name false c.st = .ok (a, s') ∧ Finds d xs s' r a := by
  have hg := igood_history hok hrefs hc
  obtain ⟨uo, x, o, e, h⟩ := holds_good hok hg hy
  refine ⟨uo, x, o, e, h.isEntry, ?_⟩
  intro name r h1 h2 h3 hi
  obtain ⟨n, hn⟩ := getAttr_inherits hok ⟨h1, h2, h3⟩ hi
  refine ⟨n, ?_⟩
  intro fuel hf
  obtain ⟨a, s', g1, g2, _, g4⟩ := hn fuel y x c.st hf hg.st h
  refine ⟨a, s', g1, ?_⟩
  cases r with
  | none => exact g4
  | some r =>
    obtain ⟨uo', x', o', e', i⟩ := r
    obtain ⟨z, rfl, k1, k2⟩ := g4
    obtain ⟨b, hb, _⟩ := find_at k2
    exact ⟨_, rfl, rfl, k1.isEntry, attr_shows hok g2 k1 hb⟩

/-- C25. Following a reference gets hold of the entry referred to, in whatever unit it is. -/
theorem C25_follow {y : DIE} (hy : c.Holds d y) : ∃ uo x o e, IsEntry d xs y uo x o e ∧ ∀ (i : Nat) b v o' uo' x' e', e.decl.attrs[i]? = some b → e.vals[i]? = some v →
    RefTo uo b v o' → EntryIn xs uo' x' o' e' → ∃ z s', toDIE d (some ⟨y, i⟩) c.st = .ok (some z, s') ∧ IsEntry d xs z uo' x' o' e' ∧
      (b.name ≠ 1 → IHistory d xs (c.got z s') ∧ (c.got z s').Holds d z) := by
  have hg := igood_history hok hrefs hc
  obtain ⟨uo, x, o, e, h⟩ := holds_good hok hg hy
  refine ⟨uo, x, o, e, h.isEntry, ?_⟩
  intro i b v o' uo' x' e' hb hv hr he
  obtain ⟨z, s', g1, g2, g3, g4⟩ := toDIE_ref hok hg.st h hb hv hr he
  refine ⟨z, s', g1, g4.isEntry, ?_⟩
  intro hn
  refine ⟨.step hc ?_, ?_, ?_⟩
  · obtain ⟨b', _, _, _, k1, _, _, k2, _⟩ := attr_shows hok hg.st h hb
    rw [hb] at k1; injection k1 with k1; subst k1
    exact .follow hy k2 hn g1
  · rw [g4.off]; exact g4.isOpen
  · unfold IClient.got; simp

/-- C56. The entry at an offset is found whatever units are known by then. -/
theorem C56_find {uo : Nat} {x : DieUnit} {o : Nat} {e : DieEntry} (he : EntryIn xs uo x o e) :
    ∃ z s', infoOffsetToDIE d o c.st = .ok (z, s') ∧ IsEntry d xs z uo x o e ∧ IHistory d xs (c.got z s') ∧ (c.got z s').Holds d z := by
  have hg := igood_history hok hrefs hc
  obtain ⟨z, s', g1, g2, g3, g4⟩ := info_goto hok hg.st he
  refine ⟨z, s', g1, g4.isEntry, .step hc (.find he g1), ?_, ?_⟩
  · rw [g4.off]; exact g4.isOpen
  · unfold IClient.got; simp

omit hrefs hc in
/-- C56. A unit has no entry at an offset that is not inside of it, whatever is known by then. -/
theorem C56_outside {uo : Nat} {x : DieUnit} (hx : (uo, x) ∈ placeUnits 0 xs) {u : Die.Unit} (hu : openUnit d.info d.abbr uo = .ok u) {o : Nat} (ho : o < uo ∨ uo + x.encode.length ≤ o) (s : IState) :
    inUnit u o s = .ok (none, s.setSt uo (s.st uo)) := by
  obtain ⟨u', T, hop⟩ := opened hok hx
  have : u' = u := by have := hop.isOpen; rw [hu] at this; injection this with this; exact this.symm
  subst this
  have e := hop.off
  unfold inUnit offsetToDIE
  rw [hop.off, hop.stop, if_pos (by omega)]
  rfl

omit hrefs hc in
theorem units_from (ys : List DieUnit) : ∀ (a : List DieUnit) (y : DieUnit) (fuel : Nat) (u : Die.Unit) (s : IState),
    xs = a ++ y :: ys → ys.length + 1 < fuel → openUnit d.info d.abbr (encodeUnits a).length = .ok u → ISt d xs s →
    ∃ us s', unitsFrom d fuel (some u) s = .ok (us, s') ∧ us.map Die.Unit.offset = (placeUnits (encodeUnits a).length (y :: ys)).map (·.1) ∧
      (∀ v ∈ us, openUnit d.info d.abbr v.offset = .ok v) ∧ ISt d xs s' ∧ IExt s s' := by
  induction ys with
  | nil =>
    intro a y fuel u s hxs hf hu hs
    obtain ⟨f, rfl⟩ : ∃ f, fuel = f + 2 := ⟨fuel - 2, by simp at hf; omega⟩
    have hp : ((encodeUnits a).length, y) ∈ placeUnits 0 xs := by
      rw [hxs, placeUnits_append, Nat.zero_add]; simp [placeUnits]
    obtain ⟨u', t, hop⟩ := opened hok hp
    have : u' = u := by have := hop.isOpen; rw [hu] at this; injection this with this; exact this.symm
    subst this
    refine ⟨[u'], s, ?_, ?_, ?_, hs, IExt.refl _⟩
    · have hstop : u'.stop = d.info.length := by
        rw [hop.stop, hok.info, hxs]; simp [encodeUnits]
      rw [unitsFrom, nextUnit, if_pos hstop, Res.bind_ok]
      rfl
    · simp [placeUnits, hop.off]
    · intro v hv; simp at hv; subst hv; rw [hop.off]; exact hu
  | cons z ys ih =>
    intro a y fuel u s hxs hf hu hs
    obtain ⟨f, rfl⟩ : ∃ f, fuel = f + 1 := ⟨fuel - 1, by omega⟩
    rw [List.length_cons] at hf
    have hp : ((encodeUnits a).length, y) ∈ placeUnits 0 xs := by
      rw [hxs, placeUnits_append, Nat.zero_add]; simp [placeUnits]
    obtain ⟨u', t, hop⟩ := opened hok hp
    have : u' = u := by have := hop.isOpen; rw [hu] at this; injection this with this; exact this.symm
    subst this
    have hstop : u'.stop = (encodeUnits (a ++ [y])).length := by rw [hop.stop]; simp [encodeUnits]
    have hne : u'.stop ≠ d.info.length := by
      have := unit_ne z
      have hl : d.info.length = (encodeUnits a).length + (y.encode.length + (z.encode.length + (encodeUnits ys).length)) := by
        rw [hok.info, hxs]; simp [encodeUnits]
      rw [hop.stop]; omega
    have hxs' : xs = (a ++ [y]) ++ z :: ys := by rw [hxs]; simp
    have hp' : ((encodeUnits (a ++ [y])).length, z) ∈ placeUnits 0 xs := by
      rw [hxs', placeUnits_append, Nat.zero_add]; simp [placeUnits]
    obtain ⟨v, s1, g1, g2, g3, g4⟩ := unit_start hok hp' hs
    obtain ⟨us, s', k1, k2, k3, k4, k5⟩ := ih (a ++ [y]) z f v s1 hxs' (by omega) g2 g3
    refine ⟨u' :: us, s', ?_, ?_, ?_, k4, g4.trans k5⟩
    · rw [unitsFrom, nextUnit, if_neg hne, hstop, g1, Res.bind_ok]
      simp only
      rw [Res.bind_ok]
      simp only
      rw [k1, Res.bind_ok]
    · rw [List.map_cons, k2, hop.off]
      simp [placeUnits, encodeUnits]
    · intro w hw
      rcases List.mem_cons.1 hw with rfl | hw
      · rw [hop.off]; exact hu
      · exact k3 w hw

/-- C56. Running over the units gives every unit of the section once, in order, whatever was done before. -/
theorem C56_units (hne : xs ≠ []) : ∃ n, ∀ fuel, n ≤ fuel → ∃ us s', allUnits d fuel c.st = .ok (us, s') ∧
    us.map Die.Unit.offset = (placeUnits 0 xs).map (·.1) ∧ ∀ v ∈ us, openUnit d.info d.abbr v.offset = .ok v := by
  have hg := igood_history hok hrefs hc
  refine ⟨xs.length + 1, ?_⟩
  intro fuel hf
  cases hxs : xs with
  | nil => exact absurd hxs hne
  | cons y ys =>
    have hp : (0, y) ∈ placeUnits 0 xs := by rw [hxs]; simp [placeUnits]
    obtain ⟨u, s1, g1, g2, g3, g4⟩ := unit_start hok hp hg.st
    obtain ⟨us, s', k1, k2, k3, _⟩ := units_from hok ys [] y fuel u s1 (by simp [hxs]) (by rw [hxs] at hf; simp at hf; omega) g2 g3
    refine ⟨us, s', ?_, ?_, k3⟩
    · unfold allUnits
      rw [g1, Res.bind_ok]
      exact k1
    · exact k2

omit hrefs hc in
theorem cycle_never {name : Nat} (hn : name ≠ 0x3c ∧ name ≠ 0x31 ∧ name ≠ 0x47) : ∀ (fuel : Nat) {uo : Nat} {x : DieUnit} {o : Nat} {e : DieEntry} {uo' : Nat} {x' : DieUnit}
    {o' : Nat} {e' : DieEntry}, EntryIn xs uo x o e → EntryIn xs uo' x' o' e' → o ≠ o' → RefersTo uo e 0x31 o' → RefersTo uo' e' 0x31 o → e.find name = none → e'.find name = none →
    ∀ (y : DIE) (s : IState), ISt d xs s → GoodDie d xs s y uo x o e → getAttr d fuel y name false s = .ub := by
  have hc : ¬(false = true ∨ name = 0x3c ∨ name = 0x31 ∨ name = 0x47) := by
    rintro (h | h | h | h)
    · cases h
    · exact hn.1 h
    · exact hn.2.1 h
    · exact hn.2.2 h
  intro fuel
  induction fuel with
  | zero => intros; rfl
  | succ fuel ih =>
    intro uo x o e uo' x' o' e' he he' ho hr hr' hf hf' y s hs hg
    obtain ⟨i, b, v, hf1, hb, hv, h1⟩ := hr
    obtain ⟨z, s2, k1, k2, k3, k4⟩ := toDIE_ref hok hs hg hb hv h1 he'
    rw [getAttr, own_spec hok hs hg, Res.bind_ok, hf]
    simp only [Option.map_none]
    rw [if_neg hc, own_spec hok hs hg, Res.bind_ok, hf1]
    simp only [Option.map_some]
    rw [k1, Res.bind_ok]
    simp only
    rw [other_spec hok (hg.ext k3) k4, if_neg (Ne.symm ho)]
    exact ih he' he (Ne.symm ho) hr' ⟨i, b, v, hf1, hb, hv, h1⟩ hf' hf z s2 k2 k4

/-- C25: two entries that have each other as their abstract origin (in a damaged file) make the search for an attribute neither of them has go on for
ever: no depth of recursion is enough. -/
theorem C25_not_cycle {y : DIE} (hy : c.Holds d y) {uo : Nat} {x : DieUnit} {o : Nat} {e : DieEntry} (hi : IsEntry d xs y uo x o e) {uo' : Nat} {x' : DieUnit} {o' : Nat} {e' : DieEntry}
    (he' : EntryIn xs uo' x' o' e') (ho : o ≠ o') (hr : RefersTo uo e 0x31 o') (hr' : RefersTo uo' e' 0x31 o) {name : Nat} (hn : name ≠ 0x3c ∧ name ≠ 0x31 ∧ name ≠ 0x47)
    (h1 : e.find name = none) (h2 : e'.find name = none) (fuel : Nat) : getAttr d fuel y name false c.st = .ub := by
  have hg := igood_history hok hrefs hc
  obtain ⟨uo1, x1, o1, e1, h⟩ := holds_good hok hg hy
  have hu : (uo1, x1) = (uo, x) := by
    have hb1 := (placed_pairwise x1 uo1).1 _ h.entry.2
    have hb2 := (placed_pairwise x uo).1 _ hi.2.2.2
    have e1 : o1 = o := by rw [← hi.2.1, h.handle]
    subst e1
    simp only at hb1 hb2
    exact units_inj h.entry.1 hi.2.2.1 (o := o1) ⟨by simp only; omega, hb1.2⟩ ⟨by simp only; omega, hb2.2⟩
  injection hu with hu1 hu2
  subst hu1; subst hu2
  have e1 : o1 = o := by rw [← hi.2.1, h.handle]
  subst e1
  have e2 := placed_inj h.entry.2 hi.2.2.2
  subst e2
  exact cycle_never hok hn fuel hi.2.2 he' ho hr hr' h1 h2 y c.st hg.st h

end

/-- C25: an offset in one of the forms DW_FORM_strp, DW_FORM_line_strp and DW_FORM_sec_offset of half the possible size or more is not the value: it is
taken for a negative number. -/
theorem C25_not_offset (d rest : List Byte) (u : Die.Unit) (f : FormEntry) (hf : f.form = 0x0e ∨ f.form = 0x1f ∨ f.form = 0x17) (hu : u.dwarfLen = 4) (off n : Nat)
    (h1 : 2 ^ 31 ≤ n) (h2 : n < 2 ^ 32) (hd : d.drop off = leBytes 4 n ++ rest) :
    ∃ w, readValue d u f off = .ok (.word w, off + 4) ∧ w.toNat = 2 ^ 64 - 2 ^ 32 + n ∧ formKind f.form = some .offset := by
  have hg : getint d 4 off = .ok (BitVec.ofInt 64 ((n : Int) - 2 ^ 32), off + 4) := by
    have := getint_prefix d (leBytes 4 n) rest off hd (by rw [leBytes_length]; decide) (by intro h; have := leBytes_length 4 n; rw [h] at this; cases this)
    rw [leBytes_length] at this
    have hv : leInt (leBytes 4 n) = (n : Int) - 2 ^ 32 := by
      unfold leInt
      rw [leNat_leBytes, leBytes_length, Nat.mod_eq_of_lt (by omega), if_neg (by omega)]
    rw [this, hv]
  have hw : (BitVec.ofInt 64 ((n : Int) - 2 ^ 32)).toNat = 2 ^ 64 - 2 ^ 32 + n := by
    rw [BitVec.toNat_ofInt]; omega
  obtain ⟨form, value⟩ := f
  refine ⟨_, ?_, hw, ?_⟩
  · rcases hf with rfl | rfl | rfl <;> simp only [readValue, hu, ite_self]
    all_goals rw [Parse.bind_ok hg]; rfl
  · rcases hf with rfl | rfl | rfl <;> rfl

/-! ### A section with two units -/

def pairRoot : DieDecl := ⟨1, 0x11, true, [⟨0x03, 0x08, 0⟩]⟩
def pairFunc : DieDecl := ⟨2, 0x2e, false, [⟨0x03, 0x08, 0⟩, ⟨0x3b, 0x0b, 0⟩]⟩
def pairInst : DieDecl := ⟨3, 0x2e, false, [⟨0x31, 0x13, 0⟩]⟩
def pairSpec : DieDecl := ⟨4, 0x2e, false, [⟨0x3b, 0x0b, 0⟩, ⟨0x47, 0x10, 0⟩]⟩
def pairDecls : List DieDecl := [pairRoot, pairFunc, pairInst, pairSpec]

/-- A root, a function `f` of line 7, and an entry that has this function as its abstract origin. -/
def pairOne : DieUnit := ⟨false, 5, 1, 8, [], 0, pairDecls, ⟨⟨pairRoot, [.str [0x61#8]]⟩, some (.leaf ⟨pairFunc, [.str [0x66#8], .num 7]⟩ (.leaf ⟨pairInst, [.num 15]⟩ .done))⟩, []⟩

/-- A root, and an entry of line 9 with the entry of the other unit as its specification. -/
def pairTwo : DieUnit := ⟨false, 5, 1, 8, [], 0, pairDecls, ⟨⟨pairRoot, [.str [0x62#8]]⟩, some (.leaf ⟨pairSpec, [.num 9, .num 19]⟩ .done)⟩, []⟩

def pairSections : Sections := ⟨encodeUnits [pairOne, pairTwo], encodeDecls pairDecls, [], [], [], [], none, none⟩

theorem pairOne_placed : (pairOne.placed 0).all = [(12, ⟨pairRoot, [.str [0x61#8]]⟩), (15, ⟨pairFunc, [.str [0x66#8], .num 7]⟩), (19, ⟨pairInst, [.num 15]⟩)] := by
  simp [pairOne, pairRoot, pairFunc, pairInst, DieUnit.sizes, DieUnit.rootPos, DieUnit.lengthField, DieTree.all, DieTree.firsts, Forest.firsts,
      DieUnit.header, DieUnit.offSize, DieUnit.placed, DieTree.place, Forest.place, DieEntry.encode, encodeVals, formKind,
      FormKind.encode, Sizes.refAddr, encodeU_small, leBytes_length]

theorem pairTwo_placed : (pairTwo.placed 25).all = [(37, ⟨pairRoot, [.str [0x62#8]]⟩), (40, ⟨pairSpec, [.num 9, .num 19]⟩)] := by
  simp [pairTwo, pairRoot, pairSpec, DieUnit.sizes, DieUnit.rootPos, DieUnit.lengthField, DieTree.all, DieTree.firsts, Forest.firsts,
      DieUnit.header, DieUnit.offSize, DieUnit.placed, DieTree.place, Forest.place, DieEntry.encode, encodeVals, formKind,
      FormKind.encode, Sizes.refAddr, encodeU_small, leBytes_length]

theorem pairOne_length : pairOne.encode.length = 25 := by
  simp [pairOne, pairRoot, pairFunc, pairInst, DieUnit.encode, DieUnit.body, DieUnit.sizes, DieUnit.lengthField, DieTree.encode, Forest.encode,
      DieUnit.header, DieUnit.offSize, DieEntry.encode, encodeVals, formKind, FormKind.encode, Sizes.refAddr, encodeU_small, leBytes_length]

theorem pairTwo_length : pairTwo.encode.length = 22 := by
  simp [pairTwo, pairRoot, pairSpec, DieUnit.encode, DieUnit.body, DieUnit.sizes, DieUnit.lengthField, DieTree.encode, Forest.encode,
      DieUnit.header, DieUnit.offSize, DieEntry.encode, encodeVals, formKind, FormKind.encode, Sizes.refAddr, encodeU_small, leBytes_length]

theorem pair_units : placeUnits 0 [pairOne, pairTwo] = [(0, pairOne), (25, pairTwo)] := by
  simp [placeUnits, pairOne_length]

theorem pairDecls_wf : ∀ a ∈ pairDecls, a.WF := by
  intro a ha
  simp only [pairDecls, List.mem_cons, List.not_mem_nil, or_false] at ha
  rcases ha with rfl | rfl | rfl | rfl <;> refine ⟨by decide, by decide, ?_⟩ <;> intro b hb <;>
    simp only [pairRoot, pairFunc, pairInst, pairSpec, List.mem_cons, List.not_mem_nil, or_false] at hb
  · subst hb; exact ⟨by decide, by decide, by decide⟩
  · rcases hb with rfl | rfl <;> exact ⟨by decide, by decide, by decide⟩
  · subst hb; exact ⟨by decide, by decide, by decide⟩
  · rcases hb with rfl | rfl <;> exact ⟨by decide, by decide, by decide⟩

theorem pair_ok : InfoOk pairSections [pairOne, pairTwo] := by
  refine ⟨rfl, ?_, ?_, ?_, ?_⟩
  · intro x hx
    simp only [List.mem_cons, List.not_mem_nil, or_false] at hx
    rcases hx with rfl | rfl
    · refine ⟨⟨by decide, fun _ => .inl (by decide), by decide, (fun h => by cases h), by decide, pairDecls_wf, by decide, ?_⟩, ?_, by decide, (fun h => by cases h)⟩
      · simp [pairOne, pairDecls, pairRoot, pairFunc, pairInst, pairSpec, DieUnit.sizes, DieUnit.rootPos, DieUnit.lengthField,
          DieUnit.header, DieUnit.offSize, DieTree.WF, Forest.WF, ValsFit, AttrFits, DieTree.encode, Forest.encode, DieEntry.encode, encodeVals, formKind,
          FormKind.encode, Sizes.refAddr, FormKind.Fits, IsLocalRef, encodeU_small, leBytes_length, GoodName]
      · simp [pairOne, pairRoot, pairFunc, pairInst, DieUnit.body, DieUnit.sizes, DieTree.encode, Forest.encode,
          DieUnit.header, DieUnit.offSize, DieEntry.encode, encodeVals, formKind, FormKind.encode, Sizes.refAddr, encodeU_small, leBytes_length]
    · refine ⟨⟨by decide, fun _ => .inl (by decide), by decide, (fun h => by cases h), by decide, pairDecls_wf, by decide, ?_⟩, ?_, by decide, (fun h => by cases h)⟩
      · simp [pairTwo, pairDecls, pairRoot, pairFunc, pairInst, pairSpec, DieUnit.sizes, DieUnit.rootPos, DieUnit.lengthField,
          DieUnit.header, DieUnit.offSize, DieTree.WF, Forest.WF, ValsFit, AttrFits, DieTree.encode, Forest.encode, DieEntry.encode, encodeVals, formKind,
          FormKind.encode, Sizes.refAddr, FormKind.Fits, IsLocalRef, encodeU_small, leBytes_length, GoodName]
      · simp [pairTwo, pairRoot, pairSpec, DieUnit.body, DieUnit.sizes, DieTree.encode, Forest.encode,
          DieUnit.header, DieUnit.offSize, DieEntry.encode, encodeVals, formKind, FormKind.encode, Sizes.refAddr, encodeU_small, leBytes_length]
  · intro x hx
    simp only [List.mem_cons, List.not_mem_nil, or_false] at hx
    rcases hx with rfl | rfl <;> exact ⟨[], by simp [pairOne, pairTwo, pairSections]⟩
  · simp [pairSections, encodeUnits, pairOne_length, pairTwo_length]
  · simp [pairSections, encodeDecls, pairDecls, DieDecl.encode, AttrDecl.encode, pairRoot, pairFunc, pairInst, pairSpec, encodeU_small]

theorem pair_entries {uo : Nat} {x : DieUnit} {o : Nat} {e : DieEntry} : EntryIn [pairOne, pairTwo] uo x o e ↔
    (uo = 0 ∧ x = pairOne ∧ (o, e) ∈ [(12, ⟨pairRoot, [.str [0x61#8]]⟩), (15, ⟨pairFunc, [.str [0x66#8], .num 7]⟩), (19, (⟨pairInst, [.num 15]⟩ : DieEntry))]) ∨
    (uo = 25 ∧ x = pairTwo ∧ (o, e) ∈ [(37, ⟨pairRoot, [.str [0x62#8]]⟩), (40, (⟨pairSpec, [.num 9, .num 19]⟩ : DieEntry))]) := by
  unfold EntryIn
  rw [pair_units]
  constructor
  · rintro ⟨h1, h2⟩
    simp only [List.mem_cons, List.not_mem_nil, or_false, Prod.mk.injEq] at h1
    rcases h1 with ⟨rfl, rfl⟩ | ⟨rfl, rfl⟩
    · rw [pairOne_placed] at h2; exact .inl ⟨rfl, rfl, h2⟩
    · rw [pairTwo_placed] at h2; exact .inr ⟨rfl, rfl, h2⟩
  · rintro (⟨rfl, rfl, h⟩ | ⟨rfl, rfl, h⟩)
    · exact ⟨by simp, by rw [pairOne_placed]; exact h⟩
    · exact ⟨by simp, by rw [pairTwo_placed]; exact h⟩

theorem pair_refs : RefsOk [pairOne, pairTwo] := by
  intro uo x o e he i a v o' ha hv hn hr
  obtain ⟨n, rfl, hr⟩ := hr
  have fin : ∀ {e : DieEntry} {k : Nat}, e.decl.attrs.length = k → e.decl.attrs[i]? = some a → i < k := by
    intro e k hk h
    have := List.getElem?_eq_some_iff.1 h
    obtain ⟨hlt, _⟩ := this
    omega
  rcases pair_entries.1 he with ⟨rfl, rfl, h⟩ | ⟨rfl, rfl, h⟩ <;> simp only [List.mem_cons, List.not_mem_nil, or_false, Prod.mk.injEq] at h
  · rcases h with ⟨rfl, rfl⟩ | ⟨rfl, rfl⟩ | ⟨rfl, rfl⟩
    · have := fin (k := 1) rfl ha
      obtain rfl : i = 0 := by omega
      simp at hv
    · have := fin (k := 2) rfl ha
      rcases (show i = 0 ∨ i = 1 by omega) with rfl | rfl
      · simp at hv
      · simp [pairFunc] at ha; subst ha
        rcases hr with ⟨h, _⟩ | ⟨h, _⟩
        · simp [IsLocalRef] at h
        · simp at h
    · have := fin (k := 1) rfl ha
      obtain rfl : i = 0 := by omega
      simp [pairInst] at ha hv; subst ha; subst hv
      rcases hr with ⟨_, rfl⟩ | ⟨h, _⟩
      · exact ⟨0, pairOne, _, pair_entries.2 (.inl ⟨rfl, rfl, by simp; rfl⟩)⟩
      · simp at h
  · rcases h with ⟨rfl, rfl⟩ | ⟨rfl, rfl⟩
    · have := fin (k := 1) rfl ha
      obtain rfl : i = 0 := by omega
      simp at hv
    · have := fin (k := 2) rfl ha
      rcases (show i = 0 ∨ i = 1 by omega) with rfl | rfl
      · simp [pairSpec] at ha; subst ha
        rcases hr with ⟨h, _⟩ | ⟨h, _⟩
        · simp [IsLocalRef] at h
        · simp at h
      · simp [pairSpec] at ha hv; subst ha; subst hv
        rcases hr with ⟨h, _⟩ | ⟨_, rfl⟩
        · simp [IsLocalRef] at h
        · exact ⟨0, pairOne, _, pair_entries.2 (.inl ⟨rfl, rfl, by simp; rfl⟩)⟩

/-- The entry of the second unit inherits its name from the function of the first, by way of the other entry. -/
theorem pair_inherits : Inherits [pairOne, pairTwo] 0x03 25 40 ⟨pairSpec, [.num 9, .num 19]⟩ (some (0, pairOne, 15, ⟨pairFunc, [.str [0x66#8], .num 7]⟩, 0)) := by
  refine .specification (o' := 19) (uo' := 0) (x' := pairOne) (e' := ⟨pairInst, [.num 15]⟩) (by decide) (by decide)
    ⟨1, ⟨0x47, 0x10, 0⟩, .num 19, by decide, rfl, rfl, 19, rfl, .inr ⟨rfl, rfl⟩⟩ (pair_entries.2 (.inl ⟨rfl, rfl, by simp⟩)) (by decide) ?_
  refine .origin (o' := 15) (uo' := 0) (x' := pairOne) (e' := ⟨pairFunc, [.str [0x66#8], .num 7]⟩) (by decide)
    ⟨0, ⟨0x31, 0x13, 0⟩, .num 15, by decide, rfl, rfl, 15, rfl, .inl ⟨by simp [IsLocalRef], rfl⟩⟩ (pair_entries.2 (.inl ⟨rfl, rfl, by simp⟩)) (by decide) ?_
  exact .own (pair_entries.2 (.inl ⟨rfl, rfl, by simp⟩)) (by decide)

/-- The first unit has no entry at 40, where the second has one. -/
theorem C56_outside_example : ∃ u, openUnit pairSections.info pairSections.abbr 0 = .ok u ∧ inUnit u 40 IState.empty = .ok (none, IState.empty.setSt 0 (IState.empty.st 0)) := by
  have hp : (0, pairOne) ∈ placeUnits 0 [pairOne, pairTwo] := by simp [placeUnits]
  have hl : pairOne.encode.length ≤ 40 := by
    have h : (25, pairTwo) ∈ placeUnits 0 [pairOne, pairTwo] := (pair_entries.2 (.inr ⟨rfl, rfl, List.mem_cons_of_mem _ List.mem_cons_self⟩) : EntryIn _ 25 pairTwo 40 _).1
    rw [placeUnits, placeUnits, placeUnits] at h
    simp only [List.mem_cons, List.not_mem_nil, or_false, Prod.mk.injEq] at h
    rcases h with ⟨h, _⟩ | ⟨h, _⟩ <;> omega
  obtain ⟨u, _, hu⟩ := opened pair_ok hp
  exact ⟨u, hu.isOpen, C56_outside pair_ok hp hu.isOpen (.inr (by omega)) _⟩

/-- The theorems apply: from nothing, the entry at 40 is found, its name is the string `f` of the other unit, its line its own. -/
theorem C25_example : ∃ z s, infoOffsetToDIE pairSections 40 IState.empty = .ok (z, s) ∧ IsEntry pairSections [pairOne, pairTwo] z 25 pairTwo 40 ⟨pairSpec, [.num 9, .num 19]⟩ ∧
    ∃ n, ∀ fuel, n ≤ fuel → ∃ a s', getAttr pairSections fuel z 0x03 false s = .ok (some a, s') ∧ a.die.h.off = 15 ∧ a.form s' = .ok 0x08 ∧
      ∃ off rest, a.value s' = .ok (.word (BitVec.ofNat 64 off)) ∧ pairSections.info.drop off = 0x66#8 :: 0#8 :: rest := by
  obtain ⟨z, s, h1, h2, h3, h4⟩ := C56_find pair_ok pair_refs .start (pair_entries.2 (.inr ⟨rfl, rfl, List.mem_cons_of_mem _ List.mem_cons_self⟩) : EntryIn _ 25 pairTwo 40 _)
  refine ⟨z, s, h1, h2, ?_⟩
  obtain ⟨uo, x, o, e, g1, g2⟩ := C25_inherited_partial pair_ok pair_refs h3 h4
  have ho : o = 40 := by rw [← g1.2.1, h2.2.1]
  subst ho
  have he : uo = 25 ∧ e = ⟨pairSpec, [.num 9, .num 19]⟩ := by
    rcases pair_entries.1 g1.2.2 with ⟨_, _, h⟩ | ⟨h0, _, h⟩ <;> simp at h
    exact ⟨h0, h⟩
  obtain ⟨rfl, rfl⟩ := he
  obtain ⟨n, hn⟩ := g2 0x03 _ (by decide) (by decide) (by decide) pair_inherits
  refine ⟨n, ?_⟩
  intro fuel hf
  obtain ⟨a, s', k1, k2⟩ := hn fuel hf
  obtain ⟨a', rfl, k3, k4, k5⟩ := k2
  refine ⟨a', s', k1, k4.2.1, ?_⟩
  obtain ⟨b, v, k, w, m1, m2, m3, _, m4, m5, m6⟩ := k5
  simp [pairFunc] at m1 m2
  subst m1; subst m2
  simp [formKind] at m3
  subst m3
  refine ⟨m4, ?_⟩
  obtain ⟨off, rest, q1, _, q2⟩ := m6
  exact ⟨off, rest, by rw [m5, q1], q2⟩

/-! ### A unit with a circle of references -/

def circleUnit : DieUnit := ⟨false, 5, 1, 8, [], 0, pairDecls, ⟨⟨pairRoot, [.str [0x61#8]]⟩, some (.leaf ⟨pairInst, [.num 20]⟩ (.leaf ⟨pairInst, [.num 15]⟩ .done))⟩, []⟩
def circleSections : Sections := ⟨encodeUnits [circleUnit], encodeDecls pairDecls, [], [], [], [], none, none⟩

theorem circle_entries {uo : Nat} {x : DieUnit} {o : Nat} {e : DieEntry} : EntryIn [circleUnit] uo x o e ↔
    uo = 0 ∧ x = circleUnit ∧ (o, e) ∈ [(12, ⟨pairRoot, [.str [0x61#8]]⟩), (15, ⟨pairInst, [.num 20]⟩), (20, (⟨pairInst, [.num 15]⟩ : DieEntry))] := by
  have hp : (circleUnit.placed 0).all = [(12, ⟨pairRoot, [.str [0x61#8]]⟩), (15, ⟨pairInst, [.num 20]⟩), (20, (⟨pairInst, [.num 15]⟩ : DieEntry))] := by
    simp [circleUnit, pairRoot, pairInst, DieUnit.sizes, DieUnit.rootPos, DieUnit.lengthField, DieTree.all, DieTree.firsts, Forest.firsts,
      DieUnit.header, DieUnit.offSize, DieUnit.placed, DieTree.place, Forest.place, DieEntry.encode, encodeVals, formKind,
      FormKind.encode, encodeU_small, leBytes_length]
  unfold EntryIn
  rw [placeUnits, placeUnits]
  constructor
  · rintro ⟨h1, h2⟩
    simp only [List.mem_cons, List.not_mem_nil, or_false, Prod.mk.injEq] at h1
    obtain ⟨rfl, rfl⟩ := h1
    rw [hp] at h2
    exact ⟨rfl, rfl, h2⟩
  · rintro ⟨rfl, rfl, h⟩
    exact ⟨by simp, by rw [hp]; exact h⟩

theorem circle_ok : InfoOk circleSections [circleUnit] ∧ RefsOk [circleUnit] := by
  refine ⟨⟨rfl, ?_, ?_, ?_, ?_⟩, ?_⟩
  · intro x hx
    simp only [List.mem_cons, List.not_mem_nil, or_false] at hx
    subst hx
    refine ⟨⟨by decide, fun _ => .inl (by decide), by decide, (fun h => by cases h), by decide, pairDecls_wf, by decide, ?_⟩, ?_, by decide, (fun h => by cases h)⟩
    · simp [circleUnit, pairDecls, pairRoot, pairFunc, pairInst, pairSpec, DieUnit.sizes, DieUnit.rootPos, DieUnit.lengthField,
        DieUnit.header, DieUnit.offSize, DieTree.WF, Forest.WF, ValsFit, AttrFits, DieTree.encode, Forest.encode, DieEntry.encode, encodeVals, formKind,
        FormKind.encode, FormKind.Fits, IsLocalRef, encodeU_small, leBytes_length, GoodName]
    · simp [circleUnit, pairRoot, pairInst, DieUnit.body, DieUnit.sizes, DieTree.encode, Forest.encode,
        DieUnit.header, DieUnit.offSize, DieEntry.encode, encodeVals, formKind, FormKind.encode, encodeU_small, leBytes_length]
  · intro x hx
    simp only [List.mem_cons, List.not_mem_nil, or_false] at hx
    subst hx; exact ⟨[], by simp [circleUnit, circleSections]⟩
  · simp [circleSections, encodeUnits, circleUnit, pairRoot, pairInst, DieUnit.encode, DieUnit.body, DieUnit.sizes, DieUnit.lengthField, DieTree.encode, Forest.encode,
      DieUnit.header, DieUnit.offSize, DieEntry.encode, encodeVals, formKind, FormKind.encode, encodeU_small, leBytes_length]
  · simp [circleSections, encodeDecls, pairDecls, DieDecl.encode, AttrDecl.encode, pairRoot, pairFunc, pairInst, pairSpec, encodeU_small]
  · intro uo x o e he i a v o' ha hv hn hr
    obtain ⟨n, rfl, hr⟩ := hr
    obtain ⟨rfl, rfl, h⟩ := circle_entries.1 he
    have fin : e.decl.attrs.length = 1 → i = 0 := by
      intro hk
      obtain ⟨hlt, _⟩ := List.getElem?_eq_some_iff.1 ha
      omega
    simp only [List.mem_cons, List.not_mem_nil, or_false, Prod.mk.injEq] at h
    rcases h with ⟨rfl, rfl⟩ | ⟨rfl, rfl⟩ | ⟨rfl, rfl⟩ <;> obtain rfl := fin rfl
    · simp at hv
    · simp [pairInst] at ha hv; subst ha; subst hv
      rcases hr with ⟨_, rfl⟩ | ⟨h, _⟩
      · exact ⟨0, circleUnit, _, circle_entries.2 ⟨rfl, rfl, by simp; rfl⟩⟩
      · simp at h
    · simp [pairInst] at ha hv; subst ha; subst hv
      rcases hr with ⟨_, rfl⟩ | ⟨h, _⟩
      · exact ⟨0, circleUnit, _, circle_entries.2 ⟨rfl, rfl, by simp; rfl⟩⟩
      · simp at h

/-- Such a unit: the name of the entry at 15 is looked for without end. -/
theorem C25_example_cycle : ∃ z s, infoOffsetToDIE circleSections 15 IState.empty = .ok (z, s) ∧ ∀ fuel, getAttr circleSections fuel z 0x03 false s = .ub := by
  obtain ⟨z, s, h1, h2, h3, h4⟩ := C56_find circle_ok.1 circle_ok.2 .start (circle_entries.2 ⟨rfl, rfl, List.mem_cons_of_mem _ List.mem_cons_self⟩ : EntryIn _ 0 circleUnit 15 _)
  refine ⟨z, s, h1, ?_⟩
  exact C25_not_cycle circle_ok.1 circle_ok.2 h3 h4 h2 (circle_entries.2 ⟨rfl, rfl, List.mem_cons_of_mem _ (List.mem_cons_of_mem _ List.mem_cons_self)⟩) (by decide)
    ⟨0, ⟨0x31, 0x13, 0⟩, .num 20, by decide, rfl, rfl, 20, rfl, .inl ⟨by simp [IsLocalRef], rfl⟩⟩
    ⟨0, ⟨0x31, 0x13, 0⟩, .num 15, by decide, rfl, rfl, 15, rfl, .inl ⟨by simp [IsLocalRef], rfl⟩⟩ ⟨by decide, by decide, by decide⟩ (by decide) (by decide)

end Pstack.Props
