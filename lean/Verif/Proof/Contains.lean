import Verif.Proof.Ranges
/-
Whether an entry contains an address.
-/
namespace Pstack.Props
open Pstack.Reader Pstack.Spec Pstack.Dwarf Pstack.Die

section
variable {d : Sections} {xs : List DieUnit} (hok : InfoOk d xs)
include hok

/-- An entry with neither. -/
theorem contains_unknown {uo : Nat} {o : Nat} {e : DieEntry} (hno : e.find 0x11 = none ∨ e.find 0x12 = none) (hi : Inherits xs 0x55 uo o e none) :
    ∃ n, ∀ (addr : BitVec 64) fuel (y : DIE) (x : DieUnit) (s : IState), n ≤ fuel → ISt d xs s → GoodDie d xs s y uo x o e → ∃ s', containsAddress d fuel y addr s = .ok (.unknown, s') := by
  obtain ⟨m, hm⟩ := getAttr_inherits hok (d := d) (by decide) hi
  refine ⟨m + 1, fun addr fuel y x s h1 hs h => ?_⟩
  obtain ⟨a, s', g1, _, _, g4⟩ := hm fuel y x s (by omega) hs h
  have : a = none := g4
  subst this
  refine ⟨s', ?_⟩
  have hcr : ∀ low, containsRanges d fuel y low addr s = .ok (.unknown, s') := by
    intro low
    unfold containsRanges
    rw [g1, Res.bind_ok]
  unfold containsAddress
  rw [getAttr_local hok hs h 0x11 (by omega), Res.bind_ok]
  simp only
  rw [getAttr_local hok hs h 0x12 (by omega), Res.bind_ok]
  simp only
  cases hf : e.find 0x11 with
  | none => exact hcr _
  | some i =>
    cases hf2 : e.find 0x12 with
    | none => exact hcr _
    | some j => rcases hno with h | h <;> simp_all

variable (hfit : SectionsFit d)
include hfit

/-- An entry with a low and a high address. -/
theorem contains_bounds {s : IState} (hs : ISt d xs s) {y : DIE} {uo : Nat} {x : DieUnit} {o : Nat} {e : DieEntry} (h : GoodDie d xs s y uo x o e) {lo hi : Nat}
    (hb : EntryBounds d x e lo hi) (addr : BitVec 64) {fuel : Nat} (h1 : 1 ≤ fuel) :
    ∃ s', containsAddress d fuel y addr s = .ok (if lo ≤ addr.toNat ∧ addr.toNat < hi then .yes else .no, s') := by
  obtain ⟨i, j, a, b, n, f1, f2, f3, ⟨a', va, f4, f5, f6⟩, f7, f8, ⟨b', vb, f9, f10, f11⟩, hlo, hhi, f12⟩ := hb
  rw [f2] at f4; injection f4 with f4; subst f4
  rw [f8] at f9; injection f9 with f9; subst f9
  have fa : isAddrForm a.form = true := by
    rcases f3 with f | f
    · rw [f]; rfl
    · simp only [isAddrxForm, isAddrForm, Bool.or_eq_true, decide_eq_true_eq] at f ⊢; omega
  have fla : Attr.form s ⟨y, i⟩ = .ok a.form := by
    obtain ⟨a2, _, _, _, g1, _, _, _, g2, _⟩ := attr_shows hok hs h f2
    rw [f2] at g1; injection g1 with g1; subst g1; exact g2
  have na : a.form ≠ 0x23 := by
    intro e; rw [e] at fa; cases fa
  obtain ⟨lw, s1, k1, k2, k3, k4⟩ := toNum_spec hok hfit hs h f2 f5 f6 h1
  have hb' := h.ext k3.2
  have flb : Attr.form s1 ⟨y, j⟩ = .ok b.form := by
    obtain ⟨b2, _, _, _, g1, _, _, _, g2, _⟩ := attr_shows hok k3.1 hb' f8
    rw [f8] at g1; injection g1 with g1; subst g1; exact g2
  obtain ⟨hw, s2, l1, l2, l3, l4⟩ := toNum_spec hok hfit k3.1 hb' f8 f10 f11 h1
  have hhigh : ∃ w, highOf d fuel lw ⟨y, j⟩ s1 = .ok (w, s2) ∧ w.toNat = hi := by
    unfold highOf
    rw [flb, Res.bind_ok]
    rcases f12 with ⟨fb, e⟩ | ⟨⟨fb, fb'⟩, e⟩
    · have : isAddrForm b.form = true := by
        rcases fb with f | f
        · rw [f]; rfl
        · simp only [isAddrxForm, isAddrForm, Bool.or_eq_true, decide_eq_true_eq] at f ⊢; omega
      rw [if_pos this]
      refine ⟨hw, l4 (by intro e; rw [e] at this; cases this), by omega⟩
    · simp only [isConstForm, Bool.or_eq_true, decide_eq_true_eq] at fb
      have g1 : isAddrForm b.form = false := by
        rcases fb with ((((f | f) | f) | f) | f) | f <;> first | exact absurd f fb' | (rw [f]; rfl)
      have g2 : isLenForm b.form = true := by
        rcases fb with ((((f | f) | f) | f) | f) | f <;> first | exact absurd f fb' | (rw [f]; rfl)
      rw [if_neg (by rw [g1]; decide), if_pos g2, l4 (by intro e; rw [e] at g2; cases g2), Res.bind_ok]
      refine ⟨_, rfl, ?_⟩
      rw [BitVec.toNat_add, k2, l2, Nat.mod_eq_of_lt (by omega)]; omega
  obtain ⟨w, m1, m2⟩ := hhigh
  refine ⟨s2, ?_⟩
  unfold containsAddress
  rw [getAttr_local hok hs h 0x11 h1, Res.bind_ok]
  simp only
  rw [getAttr_local hok hs h 0x12 h1, Res.bind_ok, f1, f7]
  simp only [Option.map_some]
  unfold containsLowHigh
  rw [fla, Res.bind_ok, if_pos fa, k4 na, Res.bind_ok]
  simp only
  rw [m1, Res.bind_ok]
  simp only [k2, m2, gt_iff_lt]

variable (hrefs : RefsOk xs)
include hrefs

/-- An entry with ranges, and no low and high address. -/
theorem contains_list {s : IState} (hs : ISt d xs s) (hr : RangesRight d xs s) {y : DIE} {uo : Nat} {x : DieUnit} {o : Nat} {e : DieEntry} (h : GoodDie d xs s y uo x o e) {L : List (Nat × Nat)}
    (hL : EntryRanges d xs uo x o e L) (hno : e.find 0x11 = none ∨ e.find 0x12 = none) (addr : BitVec 64) {fuel : Nat} (h1 : 1 ≤ fuel) :
    ∃ s', containsAddress d fuel y addr s = .ok (if L.any (fun r => decide (r.1 ≤ addr.toNat ∧ addr.toNat ≤ r.2)) then .yes else .no, s') := by
  have hlow : ∃ bw s2, numOr0 d fuel ((e.find 0x11).map (⟨y, ·⟩)) s = .ok (bw, s2) := by
    cases hf : e.find 0x11 with
    | none => exact ⟨_, _, rfl⟩
    | some j =>
      obtain ⟨i, n, base, _, _, _, f3, _, hcase⟩ := hL
      have he : e = x.tree.root := by
        rcases hcase with ⟨_, he⟩ | hi
        · exact he
        · rw [inherits_none hi] at hf; cases hf
      subst he
      rcases f3 with ⟨k, q1, ⟨a, v, q2, q3, q4⟩, _⟩ | ⟨hn, _⟩
      · rw [hf] at q1; injection q1 with q1; subst q1
        obtain ⟨w, s2, k1, _⟩ := toNum_spec hok hfit hs h q2 q3 q4 h1
        exact ⟨w, s2, k1⟩
      · rw [hn.1] at hf; cases hf
  obtain ⟨bw, s2, g3⟩ := hlow
  have hb := base_arg hok hfit hs h (fun _ => rfl) h1 g3
  have hlg : GoodOpt d xs s ((e.find 0x11).map (⟨y, ·⟩)) := by
    intro a ha
    cases hf : e.find 0x11 with
    | none => rw [hf] at ha; cases ha
    | some i => rw [hf] at ha; injection ha with ha; subst ha; exact ⟨uo, x, o, e, h⟩
  have k3 := numOr0_keep hok hrefs hs hlg g3
  obtain ⟨s', k⟩ := unitRanges_spec hok hfit k3.1 (hr.of_eq k3.2.2) (h.ext k3.2) hL hb h1
  have hcr : containsRanges d fuel y ((e.find 0x11).map (⟨y, ·⟩)) addr s = .ok (if L.any (fun r => decide (r.1 ≤ addr.toNat ∧ addr.toNat ≤ r.2)) then .yes else .no, s') := by
    obtain ⟨i, n, base, f1, _⟩ := hL
    unfold containsRanges
    rw [getAttr_own hok hs h f1 h1 false, Res.bind_ok]
    simp only
    rw [g3, Res.bind_ok]
    simp only
    rw [k, Res.bind_ok]
  refine ⟨s', ?_⟩
  unfold containsAddress
  rw [getAttr_local hok hs h 0x11 h1, Res.bind_ok]
  simp only
  rw [getAttr_local hok hs h 0x12 h1, Res.bind_ok]
  simp only
  rw [← hcr]
  cases hf : e.find 0x11 with
  | none => rfl
  | some i =>
    cases hf2 : e.find 0x12 with
    | none => rfl
    | some j => rcases hno with h | h <;> simp_all

end

end Pstack.Props
