import Verif.Proof.Place
/-
Whatever is asked for, what is remembered stays right.
-/
namespace Pstack.Props
open Pstack.Reader Pstack.Spec Pstack.Dwarf Pstack.Die

section
variable {d : Sections} {xs : List DieUnit} (hok : InfoOk d xs) (hrefs : RefsOk xs)
include hok hrefs

/-- What is remembered is right, and more than before. -/
def Kept (d : Sections) (xs : List DieUnit) (s s' : IState) : Prop := ISt d xs s' ∧ IExt s s'

omit hok hrefs in
theorem Kept.refl {s : IState} (h : ISt d xs s) : Kept d xs s s := ⟨h, IExt.refl _⟩
omit hok hrefs in
theorem Kept.trans {a b c : IState} (h1 : Kept d xs a b) (h2 : Kept d xs b c) : Kept d xs a c := ⟨h2.1, h1.2.trans h2.2⟩

omit hok hrefs in
theorem root_mem (x : DieUnit) (uo : Nat) : (uo + x.rootPos, x.tree.root) ∈ (x.placed uo).all := by
  unfold DieUnit.placed DieTree.place DieTree.all DieTree.firsts
  cases x.tree.kids <;> simp

omit hrefs in
/-- The root of a unit. -/
theorem root_good {s : IState} (hs : ISt d xs s) {uo : Nat} {x : DieUnit} (hp : (uo, x) ∈ placeUnits 0 xs) {u : Die.Unit} (hu : openUnit d.info d.abbr uo = .ok u) :
    ∃ y s', rootDIE u s = .ok (some y, s') ∧ Kept d xs s s' ∧ GoodDie d xs s' y uo x (uo + x.rootPos) x.tree.root := by
  obtain ⟨u', t, hop⟩ := opened hok hp
  have : u' = u := by have := hop.isOpen; rw [hu] at this; injection this with this; exact this.symm
  subst this
  obtain ⟨y, s', g1, g2, g3, g4, _⟩ := inUnit_entry hok hs ⟨hp, root_mem x uo⟩ hu
  refine ⟨y, s', ?_, ⟨g2, g3⟩, g4⟩
  unfold rootDIE
  rw [hop.root]; exact g1

/-- There is an entry the `DIE` is that of. -/
def Good1 (d : Sections) (xs : List DieUnit) (s : IState) (y : DIE) : Prop := ∃ uo x o e, GoodDie d xs s y uo x o e

omit hok hrefs in
theorem Good1.ext {s s' : IState} {y : DIE} (h : Good1 d xs s y) (he : IExt s s') : Good1 d xs s' y := by
  obtain ⟨uo, x, o, e, h⟩ := h
  exact ⟨uo, x, o, e, h.ext he⟩

def GoodOpt (d : Sections) (xs : List DieUnit) (s : IState) (a : Option Attr) : Prop := ∀ a', a = some a' → Good1 d xs s a'.die

/-- A unit at its place. -/
def GoodUnit (d : Sections) (xs : List DieUnit) (u : Die.Unit) : Prop := ∃ uo x, (uo, x) ∈ placeUnits 0 xs ∧ openUnit d.info d.abbr uo = .ok u

omit hok hrefs in
theorem Good1.unit {s : IState} {y : DIE} (h : Good1 d xs s y) : GoodUnit d xs y.unit := by
  obtain ⟨uo, x, o, e, h⟩ := h
  exact ⟨uo, x, h.entry.1, h.isOpen⟩

theorem getAttr_keep {s s' : IState} (hs : ISt d xs s) {y : DIE} (hg : Good1 d xs s y) {fuel name : Nat} {isLocal : Bool} {a : Option Attr}
    (h : getAttr d fuel y name isLocal s = .ok (a, s')) : Kept d xs s s' ∧ GoodOpt d xs s' a := by
  obtain ⟨uo, x, o, e, hg⟩ := hg
  obtain ⟨h1, h2, h3⟩ := getAttr_good hok hrefs name fuel y isLocal s a s' uo x o e hs hg h
  refine ⟨⟨h1, h2⟩, ?_⟩
  intro a' ha
  obtain ⟨uo', x', o', e', k, _⟩ := h3 a' ha
  exact ⟨uo', x', o', e', k⟩

theorem rootAttr_keep {s s' : IState} (hs : ISt d xs s) {u : Die.Unit} (hu : GoodUnit d xs u) {fuel name : Nat} {a : Option Attr}
    (h : rootAttr d fuel u name s = .ok (a, s')) : Kept d xs s s' ∧ GoodOpt d xs s' a := by
  obtain ⟨uo, x, hp, hu⟩ := hu
  obtain ⟨y, s1, g1, g2, g3⟩ := root_good hok hs hp hu
  unfold rootAttr at h
  rw [g1, Res.bind_ok] at h
  obtain ⟨k1, k2⟩ := getAttr_keep hok hrefs g2.1 ⟨_, _, _, _, g3⟩ h
  exact ⟨g2.trans k1, k2⟩

theorem addrx_keep {s s' : IState} (hs : ISt d xs s) {u : Die.Unit} (hu : GoodUnit d xs u) {fuel : Nat} {i w : BitVec 64}
    (h : addrx d fuel u i s = .ok (w, s')) : Kept d xs s s' := by
  unfold addrx at h
  cases hd : d.addr with
  | none => rw [hd] at h; cases h
  | some sec =>
    rw [hd] at h
    simp only at h
    obtain ⟨⟨a, s1⟩, h1, h⟩ := Res.bind_eq_ok.1 h
    obtain ⟨base, _, h⟩ := Res.bind_eq_ok.1 h
    obtain ⟨_, _, h⟩ := Res.bind_eq_ok.1 h
    obtain ⟨⟨_, _⟩, _, h⟩ := Res.bind_eq_ok.1 h
    injection h with h; injection h with _ h
    subst h
    exact (rootAttr_keep hok hrefs hs hu h1).1

theorem toUint_keep {s s' : IState} (hs : ISt d xs s) {a : Option Attr} (ha : GoodOpt d xs s a) {fuel : Nat} {w : BitVec 64}
    (h : toUint d fuel a s = .ok (w, s')) : Kept d xs s s' := by
  unfold toUint at h
  cases a with
  | none => injection h with h; injection h with _ h; subst h; exact Kept.refl hs
  | some a =>
    simp only at h
    obtain ⟨f, _, h⟩ := Res.bind_eq_ok.1 h
    split at h <;> first
      | (obtain ⟨_, _, h⟩ := Res.bind_eq_ok.1 h
         injection h with h; injection h with _ h; subst h; exact Kept.refl hs)
      | (obtain ⟨_, _, h⟩ := Res.bind_eq_ok.1 h
         exact addrx_keep hok hrefs hs (ha a rfl).unit h)
      | cases h

theorem rnglistx_keep {s s' : IState} (hs : ISt d xs s) {u : Die.Unit} (hu : GoodUnit d xs u) {fuel : Nat} {i w : BitVec 64}
    (h : rnglistx d fuel u i s = .ok (w, s')) : Kept d xs s s' := by
  unfold rnglistx at h
  obtain ⟨⟨a, s1⟩, h1, h⟩ := Res.bind_eq_ok.1 h
  obtain ⟨⟨_, s2⟩, h2, h⟩ := Res.bind_eq_ok.1 h
  obtain ⟨⟨⟨_, _⟩, _⟩, _, h⟩ := Res.bind_eq_ok.1 h
  obtain ⟨⟨_, _⟩, _, h⟩ := Res.bind_eq_ok.1 h
  injection h with h; injection h with _ h
  subst h
  obtain ⟨k1, k2⟩ := rootAttr_keep hok hrefs hs hu h1
  exact k1.trans (toUint_keep hok hrefs k1.1 k2 h2)

theorem toNum_keep {s s' : IState} (hs : ISt d xs s) {a : Option Attr} (ha : GoodOpt d xs s a) {fuel : Nat} {w : BitVec 64}
    (h : toNum d fuel a s = .ok (w, s')) : Kept d xs s s' := by
  unfold toNum at h
  cases a with
  | none => injection h with h; injection h with _ h; subst h; exact Kept.refl hs
  | some a =>
    simp only at h
    obtain ⟨f, _, h⟩ := Res.bind_eq_ok.1 h
    split at h
    · obtain ⟨_, _, h⟩ := Res.bind_eq_ok.1 h
      exact rnglistx_keep hok hrefs hs (ha a rfl).unit h
    · exact toUint_keep hok hrefs hs ha h

theorem numOr0_keep {s s' : IState} (hs : ISt d xs s) {a : Option Attr} (ha : GoodOpt d xs s a) {fuel : Nat} {w : BitVec 64}
    (h : numOr0 d fuel a s = .ok (w, s')) : Kept d xs s s' := by
  unfold numOr0 at h
  cases a with
  | none => injection h with h; injection h with _ h; subst h; exact Kept.refl hs
  | some a => exact toNum_keep hok hrefs hs ha h

theorem strx_keep {s s' : IState} (hs : ISt d xs s) {u : Die.Unit} (hu : GoodUnit d xs u) {fuel : Nat} {i : BitVec 64} {w : List Byte}
    (h : strx d fuel u i s = .ok (w, s')) : Kept d xs s s' := by
  unfold strx at h
  cases hd : d.strOffsets with
  | none => rw [hd] at h; cases h
  | some sec =>
    rw [hd] at h
    simp only at h
    obtain ⟨⟨a, s1⟩, h1, h⟩ := Res.bind_eq_ok.1 h
    obtain ⟨⟨base, es, s2⟩, h2, h⟩ := Res.bind_eq_ok.1 h
    obtain ⟨⟨_, _⟩, _, h⟩ := Res.bind_eq_ok.1 h
    obtain ⟨_, _, h⟩ := Res.bind_eq_ok.1 h
    injection h with h; injection h with _ h
    subst h
    obtain ⟨k1, k2⟩ := rootAttr_keep hok hrefs hs hu h1
    refine k1.trans ?_
    unfold strBase at h2
    cases a with
    | some a =>
      simp only at h2
      obtain ⟨⟨_, _⟩, h3, h2⟩ := Res.bind_eq_ok.1 h2
      injection h2 with h2; injection h2 with _ h2; injection h2 with _ h2
      subst h2
      exact toNum_keep hok hrefs k1.1 k2 h3
    | none =>
      simp only at h2
      split at h2
      · obtain ⟨⟨⟨_, _⟩, _⟩, _, h2⟩ := Res.bind_eq_ok.1 h2
        obtain ⟨⟨_, _⟩, _, h2⟩ := Res.bind_eq_ok.1 h2
        obtain ⟨⟨_, _⟩, _, h2⟩ := Res.bind_eq_ok.1 h2
        injection h2 with h2; injection h2 with _ h2; injection h2 with _ h2
        subst h2
        exact Kept.refl k1.1
      · injection h2 with h2; injection h2 with _ h2; injection h2 with _ h2
        subst h2
        exact Kept.refl k1.1

theorem toStr_keep {s s' : IState} (hs : ISt d xs s) {a : Option Attr} (ha : GoodOpt d xs s a) {fuel : Nat} {w : List Byte}
    (h : toStr d fuel a s = .ok (w, s')) : Kept d xs s s' := by
  unfold toStr at h
  cases a with
  | none => injection h with h; injection h with _ h; subst h; exact Kept.refl hs
  | some a =>
    simp only at h
    obtain ⟨f, _, h⟩ := Res.bind_eq_ok.1 h
    split at h <;> first
      | (obtain ⟨_, _, h⟩ := Res.bind_eq_ok.1 h
         obtain ⟨_, _, h⟩ := Res.bind_eq_ok.1 h
         injection h with h; injection h with _ h; subst h; exact Kept.refl hs)
      | (obtain ⟨_, _, h⟩ := Res.bind_eq_ok.1 h
         exact strx_keep hok hrefs hs (ha a rfl).unit h)
      | (injection h with h; injection h with _ h; subst h; exact Kept.refl hs)
      | cases h

/-! ### Ranges -/

theorem ranges5_keep {u : Die.Unit} (hu : GoodUnit d xs u) {fuel : Nat} : ∀ (rounds : Nat) (base : BitVec 64) (off : Nat) (acc : List (Nat × Nat)) (s s' : IState) (l : List (Nat × Nat)),
    ISt d xs s → ranges5 d fuel u rounds base off acc s = .ok (l, s') → Kept d xs s s' := by
  intro rounds
  induction rounds with
  | zero => intro base off acc s s' l _ h; cases h
  | succ rounds ih =>
    intro base off acc s s' l hs h
    rw [ranges5] at h
    obtain ⟨⟨kind, off1⟩, _, h⟩ := Res.bind_eq_ok.1 h
    simp only at h
    split at h
    · injection h with h; injection h with _ h; subst h; exact Kept.refl hs
    · obtain ⟨⟨_, _⟩, _, h⟩ := Res.bind_eq_ok.1 h
      obtain ⟨⟨_, s1⟩, h1, h⟩ := Res.bind_eq_ok.1 h
      have := addrx_keep hok hrefs hs hu h1
      exact this.trans (ih _ _ _ _ _ _ this.1 h)
    · obtain ⟨⟨_, _⟩, _, h⟩ := Res.bind_eq_ok.1 h
      obtain ⟨⟨_, s1⟩, h1, h⟩ := Res.bind_eq_ok.1 h
      obtain ⟨⟨_, _⟩, _, h⟩ := Res.bind_eq_ok.1 h
      have := addrx_keep hok hrefs hs hu h1
      exact this.trans (ih _ _ _ _ _ _ this.1 h)
    · obtain ⟨⟨_, _⟩, _, h⟩ := Res.bind_eq_ok.1 h
      obtain ⟨⟨_, _⟩, _, h⟩ := Res.bind_eq_ok.1 h
      exact ih _ _ _ _ _ _ hs h
    · obtain ⟨⟨_, _⟩, _, h⟩ := Res.bind_eq_ok.1 h
      exact ih _ _ _ _ _ _ hs h
    · obtain ⟨⟨_, _⟩, _, h⟩ := Res.bind_eq_ok.1 h
      obtain ⟨⟨_, _⟩, _, h⟩ := Res.bind_eq_ok.1 h
      exact ih _ _ _ _ _ _ hs h
    · obtain ⟨⟨_, _⟩, _, h⟩ := Res.bind_eq_ok.1 h
      obtain ⟨⟨_, _⟩, _, h⟩ := Res.bind_eq_ok.1 h
      exact ih _ _ _ _ _ _ hs h
    · cases h

theorem readRanges_keep {s s' : IState} (hs : ISt d xs s) {y : DIE} (hg : Good1 d xs s y) {fuel : Nat} {base : BitVec 64} {l : List (Nat × Nat)}
    (h : readRanges d fuel y base s = .ok (l, s')) : Kept d xs s s' := by
  unfold readRanges at h
  obtain ⟨⟨a, s1⟩, h1, h⟩ := Res.bind_eq_ok.1 h
  obtain ⟨⟨w, s2⟩, h2, h⟩ := Res.bind_eq_ok.1 h
  obtain ⟨k1, k2⟩ := getAttr_keep hok hrefs hs hg h1
  have k3 := toNum_keep hok hrefs k1.1 k2 h2
  refine (k1.trans k3).trans ?_
  simp only at h
  split at h
  · obtain ⟨_, _, h⟩ := Res.bind_eq_ok.1 h
    injection h with h; injection h with _ h; subst h; exact Kept.refl k3.1
  · exact ranges5_keep hok hrefs hg.unit _ _ _ _ _ _ _ k3.1 h

theorem rangesBase_keep {s s' : IState} (hs : ISt d xs s) {u : Die.Unit} (hu : GoodUnit d xs u) {fuel : Nat} {base w : BitVec 64}
    (h : rangesBase d fuel u base s = .ok (w, s')) : Kept d xs s s' := by
  unfold rangesBase at h
  split at h
  · obtain ⟨⟨a, s1⟩, h1, h⟩ := Res.bind_eq_ok.1 h
    obtain ⟨k1, k2⟩ := rootAttr_keep hok hrefs hs hu h1
    exact k1.trans (numOr0_keep hok hrefs k1.1 k2 h)
  · injection h with h; injection h with _ h; subst h; exact Kept.refl hs

/-- What is remembered of the entries is right, and more than before. -/
def KeptR (d : Sections) (xs : List DieUnit) (s s' : IState) : Prop := ISt d xs s' ∧ ∀ uo, Ext (s.st uo) (s'.st uo)

omit hok hrefs in
theorem Kept.toR {s s' : IState} (h : Kept d xs s s') : KeptR d xs s s' := ⟨h.1, h.2.1⟩
omit hok hrefs in
theorem KeptR.trans {a b c : IState} (h1 : KeptR d xs a b) (h2 : KeptR d xs b c) : KeptR d xs a c := ⟨h2.1, fun uo => (h1.2 uo).trans (h2.2 uo)⟩

theorem unitRanges_keep {s s' : IState} (hs : ISt d xs s) {y : DIE} (hg : Good1 d xs s y) {fuel : Nat} {base : BitVec 64} {l : List (Nat × Nat)}
    (h : unitRanges d fuel y base s = .ok (l, s')) : KeptR d xs s s' := by
  unfold unitRanges at h
  obtain ⟨⟨b, s1⟩, h1, h⟩ := Res.bind_eq_ok.1 h
  have k1 := rangesBase_keep hok hrefs hs hg.unit h1
  refine k1.toR.trans ?_
  simp only at h
  split at h
  · injection h with h; injection h with _ h; subst h; exact (Kept.refl k1.1).toR
  · obtain ⟨⟨l', s2⟩, h2, h⟩ := Res.bind_eq_ok.1 h
    have k2 := readRanges_keep hok hrefs k1.1 (hg.ext k1.2) h2
    injection h with h; injection h with _ h; subst h
    exact ⟨⟨k2.1.loaded, k2.1.inv⟩, k2.2.1⟩

theorem dieRanges_keep {s s' : IState} (hs : ISt d xs s) {y : DIE} (hg : Good1 d xs s y) {fuel : Nat} {l : Option (List (Nat × Nat))}
    (h : dieRanges d fuel y s = .ok (l, s')) : KeptR d xs s s' := by
  unfold dieRanges at h
  obtain ⟨⟨r, s1⟩, h1, h⟩ := Res.bind_eq_ok.1 h
  obtain ⟨k1, k1'⟩ := getAttr_keep hok hrefs hs hg h1
  refine k1.toR.trans ?_
  cases r with
  | none => injection h with h; injection h with _ h; subst h; exact (Kept.refl k1.1).toR
  | some a =>
    simp only at h
    obtain ⟨⟨low, s2⟩, h2, h⟩ := Res.bind_eq_ok.1 h
    obtain ⟨⟨b, s3⟩, h3, h⟩ := Res.bind_eq_ok.1 h
    obtain ⟨⟨l', s4⟩, h4, h⟩ := Res.bind_eq_ok.1 h
    injection h with h; injection h with _ h; subst h
    obtain ⟨k2, k2'⟩ := getAttr_keep hok hrefs k1.1 (hg.ext k1.2) h2
    have k3 := numOr0_keep hok hrefs k2.1 k2' h3
    have k4 := unitRanges_keep hok hrefs k3.1 (((hg.ext k1.2).ext k2.2).ext k3.2) h4
    exact (k2.toR.trans k3.toR).trans k4

omit hok hrefs in
theorem GoodOpt.ext {s s' : IState} {a : Option Attr} (h : GoodOpt d xs s a) (he : IExt s s') : GoodOpt d xs s' a := fun a' ha => (h a' ha).ext he

theorem highOf_keep {s s' : IState} (hs : ISt d xs s) {a : Attr} (ha : Good1 d xs s a.die) {fuel : Nat} {start w : BitVec 64}
    (h : highOf d fuel start a s = .ok (w, s')) : Kept d xs s s' := by
  have hg : GoodOpt d xs s (some a) := by intro a' e; injection e with e; subst e; exact ha
  unfold highOf at h
  obtain ⟨f, _, h⟩ := Res.bind_eq_ok.1 h
  split at h
  · exact toUint_keep hok hrefs hs hg h
  · split at h
    · obtain ⟨⟨_, s1⟩, h1, h⟩ := Res.bind_eq_ok.1 h
      injection h with h; injection h with _ h; subst h
      exact toUint_keep hok hrefs hs hg h1
    · cases h

theorem containsLowHigh_keep {s s' : IState} (hs : ISt d xs s) {low high : Attr} (hl : Good1 d xs s low.die) (hh : Good1 d xs s high.die) {fuel : Nat} {addr : BitVec 64} {r : Contains}
    (h : containsLowHigh d fuel low high addr s = .ok (r, s')) : Kept d xs s s' := by
  unfold containsLowHigh at h
  obtain ⟨f, _, h⟩ := Res.bind_eq_ok.1 h
  split at h
  · obtain ⟨⟨start, s1⟩, h1, h⟩ := Res.bind_eq_ok.1 h
    obtain ⟨⟨stop, s2⟩, h2, h⟩ := Res.bind_eq_ok.1 h
    injection h with h; injection h with _ h; subst h
    have k1 := toUint_keep hok hrefs hs (by intro a' e; injection e with e; subst e; exact hl) h1
    exact k1.trans (highOf_keep hok hrefs k1.1 (hh.ext k1.2) h2)
  · cases h

theorem containsRanges_keep {s s' : IState} (hs : ISt d xs s) {y : DIE} (hg : Good1 d xs s y) {low : Option Attr} (hl : GoodOpt d xs s low) {fuel : Nat} {addr : BitVec 64} {r : Contains}
    (h : containsRanges d fuel y low addr s = .ok (r, s')) : KeptR d xs s s' := by
  unfold containsRanges at h
  obtain ⟨⟨r, s1⟩, h1, h⟩ := Res.bind_eq_ok.1 h
  obtain ⟨k1, k1'⟩ := getAttr_keep hok hrefs hs hg h1
  refine k1.toR.trans ?_
  cases r with
  | none => injection h with h; injection h with _ h; subst h; exact (Kept.refl k1.1).toR
  | some a =>
    simp only at h
    obtain ⟨⟨b, s3⟩, h3, h⟩ := Res.bind_eq_ok.1 h
    obtain ⟨⟨l', s4⟩, h4, h⟩ := Res.bind_eq_ok.1 h
    injection h with h; injection h with _ h; subst h
    have k3 := numOr0_keep hok hrefs k1.1 (hl.ext k1.2) h3
    have k4 := unitRanges_keep hok hrefs k3.1 ((hg.ext k1.2).ext k3.2) h4
    exact k3.toR.trans k4

theorem containsAddress_keep {s s' : IState} (hs : ISt d xs s) {y : DIE} (hg : Good1 d xs s y) {fuel : Nat} {addr : BitVec 64} {r : Contains}
    (h : containsAddress d fuel y addr s = .ok (r, s')) : KeptR d xs s s' := by
  unfold containsAddress at h
  obtain ⟨⟨low, s1⟩, h1, h⟩ := Res.bind_eq_ok.1 h
  obtain ⟨⟨high, s2⟩, h2, h⟩ := Res.bind_eq_ok.1 h
  obtain ⟨k1, k1'⟩ := getAttr_keep hok hrefs hs hg h1
  obtain ⟨k2, k2'⟩ := getAttr_keep hok hrefs k1.1 (hg.ext k1.2) h2
  refine (k1.trans k2).toR.trans ?_
  simp only at h
  cases low with
  | none => exact containsRanges_keep hok hrefs k2.1 ((hg.ext k1.2).ext k2.2) (by intro _ e; cases e) h
  | some lo =>
    cases high with
    | none => exact containsRanges_keep hok hrefs k2.1 ((hg.ext k1.2).ext k2.2) (k1'.ext k2.2) h
    | some hi => exact (containsLowHigh_keep hok hrefs k2.1 ((k1' lo rfl).ext k2.2) (k2' hi rfl) h).toR

/-- The search for the entry of an address. `Q` is something more that stays. -/
theorem findEntry_keepQ (Q : IState → Prop) {fuel : Nat} {addr : BitVec 64}
    (hQc : ∀ (y : DIE) (uo : Nat) (x : DieUnit) (o : Nat) (e : DieEntry) (r : Contains) (s s' : IState), ISt d xs s → Q s → GoodDie d xs s y uo x o e → containsAddress d fuel y addr s = .ok (r, s') → Q s')
    (hQe : ∀ s s' : IState, s'.ranges = s.ranges → Q s → Q s') {t uo : Nat} {x : DieUnit} {T : Tree} : ∀ depth,
    (∀ (y : DIE) (skip : Bool) (s : IState) (r : Option DIE) (s' : IState) (o : Nat) (e : DieEntry), ISt d xs s → Q s → GoodDie d xs s y uo x o e → UnitOpened d uo x y.unit T →
      findEntry d fuel addr t depth y skip s = .ok (r, s') → KeptR d xs s s' ∧ Q s' ∧ ∀ z, r = some z → Good1 d xs s' z) ∧
    (∀ (p : DIE) (s : IState) (r : Option DIE) (s' : IState) (par : Nat) (ep : DieEntry) (F : Forest (Nat × DieEntry)), ISt d xs s → Q s → GoodDie d xs s p uo x par ep → UnitOpened d uo x p.unit T →
      (F = .done ∨ ∃ g, PlaceOf d uo x T par g F) → (∀ a, F.head? = some a → GoodDie d xs s ⟨p.unit, ⟨(s.st uo).epoch, a.1⟩⟩ uo x a.1 a.2) →
      findEntry.loop d fuel addr t depth (F.head?.map (fun a => ⟨p.unit, ⟨(s.st uo).epoch, a.1⟩⟩)) p s = .ok (r, s') → KeptR d xs s s' ∧ Q s' ∧ ∀ z, r = some z → Good1 d xs s' z) := by
  intro depth
  induction depth with
  | zero =>
    refine ⟨?_, ?_⟩
    · intro y skip s r s' o e _ _ _ _ h; rw [findEntry] at h; cases h
    · intro p s r s' par ep F _ _ _ _ _ _ h; rw [findEntry.loop] at h; cases h
  | succ depth ih =>
    obtain ⟨ihf, ihl⟩ := ih
    refine ⟨?_, ?_⟩
    · intro y skip s r s' o e hs hq hg hop h
      rw [findEntry] at h
      obtain ⟨⟨c, s1⟩, h1, h⟩ := Res.bind_eq_ok.1 h
      have k1 := containsAddress_keep hok hrefs hs ⟨uo, x, o, e, hg⟩ h1
      have q1 := hQc _ _ _ _ _ _ _ _ hs hq hg h1
      have hg1 := hg.extR k1.2
      have kids : (do
          let (k, s) ← kidsBegin y s1
          findEntry.loop d fuel addr t depth k y s) = Res.ok (r, s') → KeptR d xs s s' ∧ Q s' ∧ ∀ z, r = some z → Good1 d xs s' z := by
        intro h
        obtain ⟨F, hF⟩ := tree_kids_ex hg.entry.2
        obtain ⟨s2, b1, b2, b3, b4, b5⟩ := kidsBegin_spec hok k1.1 hg1 hop hF
        rw [b1, Res.bind_ok] at h
        simp only at h
        have hep : (s1.st uo).epoch = (s2.st uo).epoch := (b3.1 uo).1.symm
        rw [hep] at h b4
        obtain ⟨c1, c2, c3⟩ := ihl y s2 r s' o e F b2 (hQe _ _ b3.2 q1) (hg1.ext b3) hop b5 b4 h
        exact ⟨k1.trans (KeptR.trans ⟨b2, b3.1⟩ c1), c2, c3⟩
      cases c with
      | no =>
        injection h with h; injection h with h0 h2; subst h2; subst h0
        exact ⟨k1, q1, nofun⟩
      | unknown => exact kids h
      | yes =>
        obtain ⟨raw, _, h⟩ := Res.bind_eq_ok.1 h
        split at h
        · injection h with h; injection h with h0 h2; subst h2; subst h0
          refine ⟨k1, q1, ?_⟩
          intro z hz; injection hz with hz; subst hz
          exact ⟨uo, x, o, e, hg1⟩
        · exact kids h
    · intro p s r s' par ep F hs hq hg hop hP hh h
      cases hF : F.head? with
      | none =>
        rw [hF, Option.map_none, findEntry.loop] at h
        injection h with h; injection h with h0 h2; subst h2; subst h0
        exact ⟨⟨hs, fun _ => Ext.refl _⟩, hq, nofun⟩
      | some a =>
        rw [hF, Option.map_some, findEntry.loop] at h
        obtain ⟨⟨r1, s1⟩, h1, h⟩ := Res.bind_eq_ok.1 h
        have hga := hh a hF
        obtain ⟨c1, c2, c3⟩ := ihf _ _ _ _ _ _ _ hs hq hga hop h1
        cases r1 with
        | some z =>
          injection h with h; injection h with h0 h2; subst h2; subst h0
          exact ⟨c1, c2, c3⟩
        | none =>
          simp only at h
          rcases hP with e | ⟨g, hP⟩
          · rw [e] at hF; cases hF
          have hga1 := hga.extR c1.2
          have hg1 := hg.extR c1.2
          obtain ⟨s2, b1, b2, b3, b4⟩ := kidsNext_spec (y := ⟨p.unit, ⟨(s.st uo).epoch, a.1⟩⟩) c1.1 hg1 hop hP hF hga1
          rw [b1, Res.bind_ok] at h
          simp only at h
          have hep : (s1.st uo).epoch = (s2.st uo).epoch := (b3.1 uo).1.symm
          rw [hep] at h b4
          obtain ⟨e1, e2, e3⟩ := ihl p s2 r s' par ep F.rest b2 (hQe _ _ b3.2 c2) (hg1.ext b3) hop (.inr ⟨_, hP.next⟩) b4 h
          exact ⟨c1.trans (KeptR.trans ⟨b2, b3.1⟩ e1), e2, e3⟩

theorem findEntry_keep {s s' : IState} (hs : ISt d xs s) {y : DIE} (hg : Good1 d xs s y) {fuel t depth : Nat} {addr : BitVec 64} {skip : Bool} {r : Option DIE}
    (h : findEntry d fuel addr t depth y skip s = .ok (r, s')) : KeptR d xs s s' ∧ ∀ z, r = some z → Good1 d xs s' z := by
  obtain ⟨uo, x, o, e, hg⟩ := hg
  obtain ⟨u, T, hop⟩ := opened hok hg.entry.1
  have hu : u = y.unit := by have := hop.isOpen; rw [hg.isOpen] at this; injection this with this; exact this.symm
  subst hu
  obtain ⟨h1, _, h3⟩ := (findEntry_keepQ hok hrefs (fun _ => True) (fun _ _ _ _ _ _ _ _ _ _ _ _ => trivial) (fun _ _ _ _ => trivial) depth).1 y skip s r s' o e hs trivial hg hop h
  exact ⟨h1, h3⟩

/-! ### Programs -/

/-- What is known of a program at any time. -/
structure IGood (d : Sections) (xs : List DieUnit) (c : IClient) : Prop where
  st : ISt d xs c.st
  units : ∀ uo x u t, (uo, x) ∈ placeUnits 0 xs → UnitOpened d uo x u t → DieGood t (c.unit uo)
  places : ∀ o, c.dies o ≠ [] → ∃ x, (o, x) ∈ placeUnits 0 xs

omit hrefs in
theorem holds_good {c : IClient} (h : IGood d xs c) {y : DIE} (hh : c.Holds d y) : Good1 d xs c.st y := by
  obtain ⟨x, hx⟩ := h.places _ (List.ne_nil_of_mem hh.2)
  obtain ⟨u, t, hop⟩ := opened hok hx
  have hu : u = y.unit := by have := hop.isOpen; rw [hh.1] at this; injection this with this; exact this.symm
  subst hu
  obtain ⟨e1, e2, e3⟩ := (h.units _ x _ t hx hop).dies y.h hh.2
  obtain ⟨D, hD⟩ := (h.units _ x _ t hx hop).inv
  obtain ⟨v, s1, s2⟩ := seen_at hD e3
  obtain ⟨⟨o, e⟩, m1, m2⟩ := treeRel_mem hop.rel v (ent_mem s2)
  have ho : o = y.h.off := by rw [← s2.1]; exact m2.1.symm
  subst ho
  exact ⟨_, x, _, e, hop.isOpen, rfl, handle_eq e1 rfl, ⟨hx, m1⟩, e3⟩

omit hok hrefs in
theorem igood_ext {c : IClient} (h : IGood d xs c) {s : IState} (hk : KeptR d xs c.st s) : IGood d xs ⟨s, c.dies, c.iters⟩ := by
  refine ⟨hk.1, ?_, h.places⟩
  intro uo x u t hx hop
  obtain ⟨D, hD⟩ := hk.1.inv uo x u t hx hop
  exact good_ext (h.units uo x u t hx hop) hD (hk.2 uo)

omit hok hrefs in
theorem igood_got {c : IClient} (h : IGood d xs c) {s : IState} (hk : KeptR d xs c.st s) {y : DIE} (hy : Good1 d xs s y) : IGood d xs (c.got y s) := by
  obtain ⟨uo', x', o', e', hy⟩ := hy
  refine ⟨hk.1, ?_, ?_⟩
  · intro uo x u t hx hop
    obtain ⟨D, hD⟩ := hk.1.inv uo x u t hx hop
    unfold IClient.got IClient.unit
    simp only
    by_cases e : uo = y.unit.offset
    · rw [if_pos e]
      have e' : uo = uo' := e.trans hy.off
      subst e'
      have hxx : x = x' := by
        have := units_inj hx hy.entry.1 (o := uo) ⟨Nat.le_refl _, by have := unit_ne x; simp only; omega⟩ ⟨Nat.le_refl _, by have := unit_ne x'; simp only; omega⟩
        injection this
      subst hxx
      refine good_add (h.units uo x u t hx hop) hD (hk.2 uo) (by rw [hy.handle]) ?_ ?_
      · rw [hy.handle]
        refine (tree_all t _).1 ?_
        rw [offsets_eq hop]
        exact mem_offsets hy.entry.2
      · rw [hy.handle]; exact hy.has
    · rw [if_neg e]
      exact good_ext (h.units uo x u t hx hop) hD (hk.2 uo)
  · intro o ho
    unfold IClient.got at ho
    simp only at ho
    by_cases e : o = y.unit.offset
    · exact ⟨x', by rw [e, hy.off]; exact hy.entry.1⟩
    · rw [if_neg e] at ho; exact h.places o ho

omit hok hrefs in
theorem igood_within {c : IClient} (h : IGood d xs c) {uo : Nat} {x : DieUnit} (hx : (uo, x) ∈ placeUnits 0 xs) {c' : Client}
    (hc : ∀ u t, UnitOpened d uo x u t → DieGood t c') : IGood d xs (c.within uo c') := by
  have key : ∀ uo2 x2 u2 t2, (uo2, x2) ∈ placeUnits 0 xs → UnitOpened d uo2 x2 u2 t2 → DieGood t2 ((c.within uo c').unit uo2) := by
    intro uo2 x2 u2 t2 hx2 hop2
    unfold IClient.within IClient.unit IState.setSt
    simp only
    by_cases e : uo2 = uo
    · subst e
      have hxx : x2 = x := by
        have := units_inj hx2 hx (o := uo2) ⟨Nat.le_refl _, by have := unit_ne x2; simp only; omega⟩ ⟨Nat.le_refl _, by have := unit_ne x; simp only; omega⟩
        injection this
      subst hxx
      rw [if_pos rfl, if_pos rfl, if_pos rfl]
      exact hc _ _ hop2
    · rw [if_neg e, if_neg e, if_neg e]
      exact h.units uo2 x2 u2 t2 hx2 hop2
  refine ⟨⟨h.st.loaded, ?_⟩, key, ?_⟩
  · intro uo2 x2 u2 t2 hx2 hop2
    exact (key uo2 x2 u2 t2 hx2 hop2).inv
  · intro o ho
    unfold IClient.within at ho
    simp only at ho
    by_cases e : o = uo
    · exact ⟨x, by rw [e]; exact hx⟩
    · rw [if_neg e] at ho; exact h.places o ho

theorem igood_did {c c' : IClient} (h : IGood d xs c) (hd : IDid d xs c c') : IGood d xs c' := by
  cases hd with
  | unit hx hg =>
    obtain ⟨u', s', g1, _, g2, g3⟩ := unit_start hok hx h.st
    rw [g1] at hg; injection hg with hg; injection hg with _ hg; subst hg
    exact igood_ext h ⟨g2, g3.1⟩
  | @within uo x u c1 hx hu hdid _ =>
    refine igood_within h hx ?_
    intro u' t hop
    have e := hop.isOpen
    rw [hu] at e; injection e with e; subst e
    refine good_did hop.laid (h.units _ _ _ t hx hop) ?_
    have : (fun o => o ∈ (x.offsets uo).all) = EntryAt t := by
      funext o
      rw [← offsets_eq hop]
      exact propext (tree_all t o)
    rw [this] at hdid
    exact hdid
  | attr hh hg =>
    obtain ⟨k1, k2⟩ := getAttr_keep hok hrefs h.st (holds_good hok h hh) hg
    exact igood_got h k1.toR (k2 _ rfl)
  | noAttr hh hg => exact igood_ext h (getAttr_keep hok hrefs h.st (holds_good hok h hh) hg).1.toR
  | @follow a n y s hh hn hne hg =>
    obtain ⟨uo, x, o, e, hy⟩ := holds_good hok h hh
    obtain ⟨r, r1, r2, r3, r4⟩ := good_raw hok h.st hy
    have hlt : ∃ b, e.decl.attrs[a.idx]? = some b := by
      cases hb : e.decl.attrs[a.idx]? with
      | some b => exact ⟨b, rfl⟩
      | none =>
        exfalso
        have hl := (attrsShow_names r4).2
        have : r.type.forms[a.idx]? = none := by
          rw [List.getElem?_eq_none_iff] at hb ⊢; omega
        unfold toDIE Attr.form at hg
        simp only at hg
        rw [r1, Res.bind_ok, this] at hg
        cases hg
    obtain ⟨b, hb⟩ := hlt
    have hbn : b.name ≠ 1 := by
      obtain ⟨b', _, _, _, g1, _, _, g2, _⟩ := attr_shows hok h.st hy hb
      have : b' = b := by rw [hb] at g1; injection g1 with g1; exact g1.symm
      subst this
      obtain ⟨die, idx⟩ := a
      rw [hn] at g2; injection g2 with g2
      rw [← g2]; exact hne
    obtain ⟨die, idx⟩ := a
    simp only at hy hb
    rcases toDIE_any hok hrefs h.st hy hb hbn with g | ⟨uo', x', o', e', z, s', v, _, _, g, g1, g2, g3⟩
    · rw [hg] at g; cases g
    · rw [hg] at g; injection g with g; injection g with g0 g; injection g0 with g0
      subst g0; subst g
      exact igood_got h ⟨g1, g2.1⟩ ⟨_, _, _, _, g3⟩
  | find he hg =>
    obtain ⟨z, s', g, g1, g2, g3⟩ := info_goto hok h.st he
    rw [hg] at g; injection g with g; injection g with g0 g
    subst g0; subst g
    exact igood_got h ⟨g1, g2.1⟩ ⟨_, _, _, _, g3⟩
  | number hh hg => exact igood_ext h (toNum_keep hok hrefs h.st (by intro a' e; injection e with e; subst e; exact holds_good hok h hh) hg).toR
  | string hh hg => exact igood_ext h (toStr_keep hok hrefs h.st (by intro a' e; injection e with e; subst e; exact holds_good hok h hh) hg).toR
  | contains hh hg => exact igood_ext h (containsAddress_keep hok hrefs h.st (holds_good hok h hh) hg)
  | ranges hh hg => exact igood_ext h (dieRanges_keep hok hrefs h.st (holds_good hok h hh) hg)
  | entry hh hg =>
    obtain ⟨k1, k2⟩ := findEntry_keep hok hrefs h.st (holds_good hok h hh) hg
    exact igood_got h k1 (k2 _ rfl)
  | noEntry hh hg => exact igood_ext h (findEntry_keep hok hrefs h.st (holds_good hok h hh) hg).1
  | @purge uo =>
    by_cases hp : ∃ x, (uo, x) ∈ placeUnits 0 xs
    · obtain ⟨x, hx⟩ := hp
      have hg : IGood d xs (c.within uo ⟨purge (c.st.st uo), [], []⟩) := by
        refine igood_within h hx ?_
        intro u t hop
        exact good_did (u := u) hop.laid (h.units _ _ _ t hx hop) .purge
      exact ⟨⟨hg.st.loaded, hg.st.inv⟩, hg.units, hg.places⟩
    · have hne : ∀ uo2 x2, (uo2, x2) ∈ placeUnits 0 xs → uo2 ≠ uo := by
        intro uo2 x2 h2 e; subst e; exact hp ⟨_, h2⟩
      refine ⟨⟨h.st.loaded, ?_⟩, ?_, ?_⟩
      · intro uo2 x2 u2 t2 hx2 hop2
        have := h.st.inv uo2 x2 u2 t2 hx2 hop2
        unfold IState.setSt IState.dropRanges
        simp only
        rw [if_neg (hne _ _ hx2)]; exact this
      · intro uo2 x2 u2 t2 hx2 hop2
        have := h.units uo2 x2 u2 t2 hx2 hop2
        unfold IClient.unit IState.setSt IState.dropRanges
        simp only
        rw [if_neg (hne _ _ hx2), if_neg (hne _ _ hx2), if_neg (hne _ _ hx2)]; exact this
      · intro o ho
        simp only at ho
        by_cases e : o = uo
        · rw [if_pos e] at ho; exact absurd rfl ho
        · rw [if_neg e] at ho; exact h.places o ho

theorem igood_history {c : IClient} (h : IHistory d xs c) : IGood d xs c := by
  induction h with
  | start =>
    have key : ∀ uo x u t, (uo, x) ∈ placeUnits 0 xs → UnitOpened d uo x u t → DieGood t ⟨State.empty, [], []⟩ := by
      intro uo x u t _ hop
      exact good_history hop.laid .start
    exact ⟨⟨(fun _ h => nomatch h), fun uo x u t hx hop => (key uo x u t hx hop).inv⟩, key, fun o ho => absurd rfl ho⟩
  | step _ hd ih => exact igood_did hok hrefs ih hd

end

end Pstack.Props
