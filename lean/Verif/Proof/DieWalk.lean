import Verif.Proof.Die
import Verif.Spec.DieMeaning
/-
Walks over all the entries of a unit, and histories.
-/
namespace Pstack.Props
open Pstack.Die Pstack.Spec

theorem sz_len {u : Die.Unit} {g : PF} (h : Laid u g) : g.sz ≤ 2 * (g.stopOf - g.pos) := by
  induction g with
  | done p s => have := h.2.1; show 1 ≤ 2 * (s - p); omega
  | leaf e r ih =>
    have := ih h.2.2.2.2.2
    have h1 := h.2.1
    have h2 := h.2.2.2.2.1
    have h3 := laid_pos_lt h.2.2.2.2.2
    show 2 + r.sz ≤ 2 * (r.stopOf - e.off)
    omega
  | node e k r ihk ihr =>
    obtain ⟨_, h1, _, _, h2, h3, _, h5, h6⟩ := h
    have := ihk h3
    have := ihr h6
    have := laid_pos_lt h3
    have := laid_pos_lt h6
    show 2 + k.sz + r.sz ≤ 2 * (r.stopOf - e.off)
    omega

theorem sz_stop {u : Die.Unit} {g : PF} (h : Laid u g) : g.sz ≤ 2 * (u.stop - g.pos) := by
  induction g with
  | done p s => have := h.1.2.2; show 1 ≤ 2 * (u.stop - p); omega
  | leaf e r ih =>
    have := ih h.2.2.2.2.2
    have h1 := h.2.1
    have h2 := h.2.2.2.2.1
    have h3 := (laid_inUnit h.2.2.2.2.2).2.2
    show 2 + r.sz ≤ 2 * (u.stop - e.off)
    omega
  | node e k r ihk ihr =>
    obtain ⟨_, h1, _, _, h2, h3, _, h5, h6⟩ := h
    have := sz_len h3
    have := ihr h6
    have := laid_pos_lt h3
    have := (laid_inUnit h6).2.2
    show 2 + k.sz + r.sz ≤ 2 * (u.stop - e.off)
    omega

/-- What there is to see. -/
def PF.seen : PF → Forest Seen
  | .done _ _ => .done
  | .leaf e r => .leaf ⟨e.off, e.type, e.values⟩ r.seen
  | .node e k r => .node ⟨e.off, e.type, e.values⟩ k.seen r.seen

/-- The parents of the entries of `g` and below are known. -/
def DieKnown (s : State) (par : Nat) (g : PF) : Prop :=
  ∀ q g', (q, g') ∈ g.occs par → g'.isEntry = true → ∃ r, s.cell s.epoch g'.pos = some r ∧ r.parent ≠ 0

theorem DieKnown.ext {s s' : State} (h : Ext s s') {par : Nat} {g : PF} (hk : DieKnown s par g) : DieKnown s' par g := by
  intro q g' hm hg
  obtain ⟨r, hr, hp⟩ := hk q g' hm hg
  obtain ⟨r', hr', hp'⟩ := h.2 _ r hr
  exact ⟨r', hr', hp' hp⟩

section
variable {u : Die.Unit} {t : Tree} (ht : LaidTree u t)
include ht

/-- Entering the children of an entry. -/
theorem enter {s : State} {D : Nat → Prop} (h : DieInv t s D) {par : Nat} {g : PF} (hm : (par, g) ∈ t.occs) (hg : g.isEntry = true) (hh : Has s g.pos) :
    (∃ e r, g = .leaf e r ∧ begin u ⟨s.epoch, g.pos⟩ s = .ok (none, s)) ∨
    (∃ e k r, g = .node e k r ∧ ∃ s', begin u ⟨s.epoch, g.pos⟩ s = .ok (curOf s.epoch k, s') ∧ DieInv t s' D ∧ Ext s s' ∧
      (k.isEntry = true → ∃ rr, s'.cell s'.epoch k.pos = some rr ∧ rr.parent = e.off)) := by
  obtain ⟨r, hr⟩ := hh
  have hc := cell_at ht h hm hr
  cases g with
  | done => cases hg
  | leaf e rest => exact .inl ⟨e, rest, rfl, begin_none (s := s) (h := ⟨s.epoch, e.off⟩) hr hc.2.2.2.1⟩
  | node e k rest =>
    obtain ⟨s', h1, h2, h3, _, h5⟩ := begin_at ht h (tree_kids hm) hr (by rw [hc.2.2.2.1]; exact (tree_laid ht hm).2.2.2.2.1.symm)
    exact .inr ⟨e, k, rest, rfl, s', h1, h2, h3, h5⟩

/-- The whole of the children from a place on, and all below. -/
theorem collect_at (g : PF) : ∀ (par : Nat) (s : State) (D : Nat → Prop) (fuel : Nat), (par, g) ∈ t.occs → DieInv t s D → Has s par → 0 < par → g.sz < fuel →
    (g.isEntry = true → ∃ r, s.cell s.epoch g.pos = some r ∧ r.parent = par) →
    (∃ s' D', collectFrom u fuel (curOf s.epoch g) ⟨s.epoch, par⟩ s = .ok (g.seen, s') ∧ DieInv t s' D' ∧ Ext s s') ∧
    (∃ s' D', walkFrom u fuel (curOf s.epoch g) ⟨s.epoch, par⟩ s = .ok s' ∧ DieInv t s' D' ∧ Ext s s' ∧ DieKnown s' par g) := by
  induction g with
  | done p stop =>
    intro par s D fuel hm h hp h0 hf _
    obtain ⟨fuel, rfl⟩ : ∃ n, fuel = n + 1 := ⟨fuel - 1, by omega⟩
    refine ⟨⟨s, D, rfl, h, Ext.refl s⟩, s, D, rfl, h, Ext.refl s, ?_⟩
    intro q g' hq hg
    simp [PF.occs] at hq
    rw [hq.2] at hg; cases hg
  | leaf e rest ih =>
    intro par s D fuel hm h hp h0 hf hcell
    have hsz : (PF.leaf e rest).sz = 2 + rest.sz := rfl
    obtain ⟨fuel, rfl⟩ : ∃ n, fuel = n + 1 := ⟨fuel - 1, by omega⟩
    obtain ⟨r, hr, hrp⟩ := hcell rfl
    have hc := cell_at ht h hm hr
    have hb : begin u ⟨s.epoch, e.off⟩ s = .ok (none, s) := begin_none (s := s) (h := ⟨s.epoch, e.off⟩) hr hc.2.2.2.1
    obtain ⟨s1, D1, h1, h2, h3, h4⟩ := next_at ht h hm hp rfl ⟨r, hr⟩ (fuel := fuel) (by omega)
    obtain ⟨⟨s2, D2, i1, i2, i3⟩, s3, D3, j1, j2, j3, j4⟩ := ih par s1 D1 fuel (tree_next hm) h2 (h3.has hp) h0 (by omega) h4
    rw [h3.1] at i1 j1
    have h1' : Die.next u fuel ⟨s.epoch, e.off⟩ ⟨s.epoch, par⟩ s = .ok (curOf s.epoch rest, s1) := h1
    obtain ⟨fuel, rfl⟩ : ∃ n, fuel = n + 1 := ⟨fuel - 1, by omega⟩
    constructor
    · refine ⟨s2, D2, ?_, i2, h3.trans i3⟩
      rw [show curOf s.epoch (PF.leaf e rest) = some ⟨s.epoch, e.off⟩ from rfl, collectFrom]
      unfold Spec.seen
      simp only [get_cur]
      rw [show s.cell s.epoch e.off = some r from hr]
      simp only [Res.bind_ok]
      rw [hb, Res.bind_ok]
      simp only
      rw [collectFrom, Res.bind_ok]
      simp only
      rw [h1', Res.bind_ok]
      simp only
      rw [i1, Res.bind_ok]
      simp only
      rw [show mkEntry ⟨e.off, r.type, r.values⟩ Forest.done rest.seen = (PF.leaf e rest).seen by
        unfold mkEntry
        rw [if_neg (by rw [hc.1, (tree_laid ht hm).2.2.2.1]; simp), hc.1, hc.2.1]; rfl]
    · refine ⟨s3, D3, ?_, j2, h3.trans j3, ?_⟩
      · rw [show curOf s.epoch (PF.leaf e rest) = some ⟨s.epoch, e.off⟩ from rfl, walkFrom]
        rw [hb, Res.bind_ok]
        simp only
        rw [walkFrom, Res.bind_ok, h1', Res.bind_ok]
        exact j1
      · intro q g' hq hg
        rcases List.mem_cons.1 hq with hq | hq
        · injection hq with _ hq
          rw [hq]
          obtain ⟨r', hr', hp'⟩ := (h3.trans j3).2 _ r hr
          exact ⟨r', hr', hp' (by omega)⟩
        · exact j4 q g' hq hg
  | node e k rest ihk ihr =>
    intro par s D fuel hm h hp h0 hf hcell
    have hsz : (PF.node e k rest).sz = 2 + k.sz + rest.sz := rfl
    obtain ⟨fuel, rfl⟩ : ∃ n, fuel = n + 1 := ⟨fuel - 1, by omega⟩
    obtain ⟨r, hr, hrp⟩ := hcell rfl
    have hc := cell_at ht h hm hr
    have hl := tree_laid ht hm
    have hpos : 0 < e.off := by have := hl.1.1; omega
    have hk := tree_kids hm
    obtain ⟨s1, b1, b2, b3, _, b5⟩ := begin_at ht h hk hr (by rw [hc.2.2.2.1]; exact hl.2.2.2.2.1.symm)
    obtain ⟨⟨s2, D2, i1, i2, i3⟩, s3, D3, j1, j2, j3, j4⟩ := ihk e.off s1 D fuel hk b2 (b3.has ⟨r, hr⟩) hpos (by omega) b5
    rw [b3.1] at i1 j1
    constructor
    · have e2 := b3.trans i3
      obtain ⟨s4, D4, n1, n2, n3, n4⟩ := next_at ht i2 hm (e2.has hp) rfl (e2.has ⟨r, hr⟩) (fuel := fuel) (by omega)
      obtain ⟨⟨s5, D5, l1, l2, l3⟩, _⟩ := ihr par s4 D4 fuel (tree_next hm) n2 (n3.has (e2.has hp)) h0 (by omega) n4
      rw [n3.1, e2.1] at l1
      rw [e2.1] at n1
      refine ⟨s5, D5, ?_, l2, (e2.trans n3).trans l3⟩
      rw [show curOf s.epoch (PF.node e k rest) = some ⟨s.epoch, e.off⟩ from rfl, collectFrom]
      unfold Spec.seen
      simp only [get_cur]
      rw [show s.cell s.epoch e.off = some r from hr]
      simp only [Res.bind_ok]
      rw [b1, Res.bind_ok]
      simp only
      rw [i1, Res.bind_ok]
      simp only
      rw [show Die.next u fuel ⟨s.epoch, e.off⟩ ⟨s.epoch, par⟩ s2 = .ok (curOf s.epoch rest, s4) from n1, Res.bind_ok]
      simp only
      rw [l1, Res.bind_ok]
      simp only
      rw [show mkEntry ⟨e.off, r.type, r.values⟩ k.seen rest.seen = (PF.node e k rest).seen by
        unfold mkEntry
        rw [if_pos (by rw [hc.1, hl.2.2.2.1]), hc.1, hc.2.1]; rfl]
    · have e2 := b3.trans j3
      obtain ⟨s4, D4, n1, n2, n3, n4⟩ := next_at ht j2 hm (e2.has hp) rfl (e2.has ⟨r, hr⟩) (fuel := fuel) (by omega)
      obtain ⟨_, s5, D5, l1, l2, l3, l4⟩ := ihr par s4 D4 fuel (tree_next hm) n2 (n3.has (e2.has hp)) h0 (by omega) n4
      rw [n3.1, e2.1] at l1
      rw [e2.1] at n1
      refine ⟨s5, D5, ?_, l2, (e2.trans n3).trans l3, ?_⟩
      · rw [show curOf s.epoch (PF.node e k rest) = some ⟨s.epoch, e.off⟩ from rfl, walkFrom]
        rw [b1, Res.bind_ok]
        simp only
        rw [j1, Res.bind_ok]
        rw [show Die.next u fuel ⟨s.epoch, e.off⟩ ⟨s.epoch, par⟩ s3 = .ok (curOf s.epoch rest, s4) from n1, Res.bind_ok]
        exact l1
      · intro q g' hq hg
        rcases List.mem_cons.1 hq with hq | hq
        · injection hq with _ hq
          rw [hq]
          obtain ⟨r', hr', hp'⟩ := ((e2.trans n3).trans l3).2 _ r hr
          exact ⟨r', hr', hp' (by omega)⟩
        · rcases List.mem_append.1 hq with hq | hq
          · exact (j4.ext (n3.trans l3)) q g' hq hg
          · exact l4 q g' hq hg

/-- What there is to see of the tree. -/
def Tree.seen (t : Tree) : DieTree Seen := ⟨⟨t.root.off, t.root.type, t.root.values⟩, t.kids.map PF.seen⟩

theorem root_cell {s : State} {D : Nat → Prop} (h : DieInv t s D) {r : Raw} (hr : s.cell s.epoch t.root.off = some r) : RootOk t r := by
  rcases h.cells _ _ hr with ⟨_, h2⟩ | ⟨q, g, h1, h2, _⟩
  · exact h2
  · have := tree_root_lt ht h1; omega

/-- From the root: what is seen, and what is known after it. -/
theorem collect_root {s : State} {D : Nat → Prop} (h : DieInv t s D) {fuel : Nat} (hf : enough u ≤ fuel) :
    (∃ s' D', collect u fuel s = .ok (t.seen, s') ∧ DieInv t s' D' ∧ Ext s s') ∧
    (∃ s1 s' D', root u s = .ok (some ⟨s.epoch, t.root.off⟩, s1) ∧ walk u fuel ⟨s.epoch, t.root.off⟩ s1 = .ok s' ∧ DieInv t s' D' ∧ Ext s s' ∧
      ∀ k, t.kids = some k → DieKnown s' t.root.off k) := by
  obtain ⟨s1, h1, h2, h3, r, hr⟩ := goto_root ht h
  have hro := root_cell ht h2 hr
  have hfp : 0 < fuel := by unfold enough at hf; omega
  obtain ⟨rt, kids⟩ := t
  cases kids with
  | none =>
    have hb : begin u ⟨s.epoch, rt.off⟩ s1 = .ok (none, s1) :=
      begin_none (s := s1) (h := ⟨s.epoch, rt.off⟩) (by rw [← h3.1]; exact hr) hro.2.2.2
    obtain ⟨fuel, rfl⟩ : ∃ n, fuel = n + 1 := ⟨fuel - 1, by omega⟩
    constructor
    · refine ⟨s1, D, ?_, h2, h3⟩
      unfold collect
      rw [h1, Res.bind_ok]
      unfold Spec.seen
      simp only
      rw [show s1.get ⟨s.epoch, rt.off⟩ = some r by rw [← h3.1]; exact hr]
      simp only [Res.bind_ok]
      rw [hb, Res.bind_ok]
      simp only
      rw [collectFrom, Res.bind_ok]
      simp only
      have hch : rt.type.hasChildren = false := ht.2.2.2.2
      rw [if_neg (by rw [hro.1, hch]; simp), hro.1, hro.2.1]; rfl
    · refine ⟨s1, s1, D, h1, ?_, h2, h3, fun k hk => nomatch hk⟩
      unfold walk
      rw [hb, Res.bind_ok]; rfl
  | some k =>
    obtain ⟨t1, t2, t3, t4, hch, hkp, hkl⟩ := ht
    have ht : LaidTree u ⟨rt, some k⟩ := ⟨t1, t2, t3, t4, hch, hkp, hkl⟩
    have hkm : (rt.off, k) ∈ (Tree.mk rt (some k)).occs := occs_self _ _
    have hpos : 0 < rt.off := by have := t2.1; show 0 < rt.off; exact Nat.pos_of_ne_zero this
    have hbnd : k.sz < fuel := by
      have := sz_stop hkl
      unfold enough at hf
      omega
    obtain ⟨s2, b1, b2, b3, _, b5⟩ := begin_at ht h2 hkm hr (by rw [hro.2.2.2]; exact hkp.symm)
    obtain ⟨⟨s3, D3, i1, i2, i3⟩, s4, D4, j1, j2, j3, j4⟩ := collect_at ht k rt.off s2 D fuel hkm b2 (b3.has ⟨r, hr⟩) hpos hbnd b5
    rw [b3.1, h3.1] at i1 j1
    rw [h3.1] at b1
    have b1' : begin u ⟨s.epoch, rt.off⟩ s1 = .ok (curOf s.epoch k, s2) := b1
    constructor
    · refine ⟨s3, D3, ?_, i2, (h3.trans b3).trans i3⟩
      unfold collect
      rw [h1, Res.bind_ok]
      unfold Spec.seen
      simp only
      rw [show s1.get ⟨s.epoch, rt.off⟩ = some r by rw [← h3.1]; exact hr]
      simp only [Res.bind_ok]
      rw [b1', Res.bind_ok]
      simp only
      rw [i1, Res.bind_ok]
      simp only
      rw [if_pos (by rw [hro.1]; exact hch), hro.1, hro.2.1]; rfl
    · refine ⟨s1, s4, D4, h1, ?_, j2, (h3.trans b3).trans j3, ?_⟩
      · unfold walk
        simp only
        rw [b1', Res.bind_ok]
        exact j1
      · intro k' hk'
        injection hk' with hk'
        rw [← hk']; exact j4

/-- The parent of an entry. -/
theorem parent_at {s : State} {D : Nat → Prop} (h : DieInv t s D) {par : Nat} {g : PF} (hm : (par, g) ∈ t.occs) (hg : g.isEntry = true) (hh : Has s g.pos)
    {fuel : Nat} (hf : enough u ≤ fuel) :
    ∃ s' D', getParentOffset u fuel ⟨s.epoch, g.pos⟩ s = .ok (par, s') ∧ DieInv t s' D' ∧ Ext s s' := by
  obtain ⟨r, hr⟩ := hh
  have hc := cell_at ht h hm hr
  have key : ∀ r, CellOk par g r → r.parent = 0 ∨ r.parent = par := by
    intro r hc
    cases g with
    | done => exact absurd hc (fun x => x)
    | leaf e rest => exact hc.2.2.1
    | node e k rest => exact hc.2.2.1
  have hlt := tree_root_lt ht hm
  have hroff : t.root.off = u.rootOffset := ht.1
  unfold getParentOffset
  simp only [get_cur]
  rw [hr]
  simp only
  by_cases h0 : r.parent = 0
  · obtain ⟨_, s1, s2, D2, h1, h2, h3, h4, h5⟩ := collect_root ht h hf
    have hkn : ∃ r, s2.cell s2.epoch g.pos = some r ∧ r.parent ≠ 0 := by
      obtain ⟨rt, kids⟩ := t
      cases kids with
      | none => cases hm
      | some k => exact h5 k rfl par g hm hg
    obtain ⟨r2, hr2, hp2⟩ := hkn
    refine ⟨s2, D2, ?_, h3, h4⟩
    rw [if_pos ⟨h0, by omega⟩, h1, Res.bind_ok]
    simp only
    rw [h2, Res.bind_ok, show s2.get ⟨s.epoch, g.pos⟩ = some r2 by rw [← h4.1]; exact hr2]
    simp only
    rw [(key r2 (cell_at ht h3 hm hr2)).resolve_left hp2]
  · refine ⟨s, D, ?_, h, Ext.refl s⟩
    rw [if_neg (by rintro ⟨h1, _⟩; exact h0 h1), Res.bind_ok]
    simp only [get_cur]
    rw [hr]
    simp only
    rw [(key r hc).resolve_left h0]

/-- The root has no parent. -/
theorem parent_root {s : State} {D : Nat → Prop} (h : DieInv t s D) (hh : Has s t.root.off) (fuel : Nat) :
    getParentOffset u fuel ⟨s.epoch, t.root.off⟩ s = .ok (0, s) := by
  obtain ⟨r, hr⟩ := hh
  have hc := root_cell ht h hr
  have h1 : t.root.off = u.rootOffset := ht.1
  unfold getParentOffset
  simp only [get_cur]
  rw [hr]
  simp only
  rw [if_neg (by rintro ⟨_, h2⟩; exact h2 h1), Res.bind_ok]
  simp only [get_cur]
  rw [hr]
  simp only
  rw [hc.2.2.1]

/-! ### Histories -/

/-- `o` is the offset of an entry of the tree. -/
def EntryAt (t : Tree) (o : Nat) : Prop := o = t.root.off ∨ ∃ par g, (par, g) ∈ t.occs ∧ g.isEntry = true ∧ g.pos = o

structure DieGood (t : Tree) (c : Client) : Prop where
  inv : ∃ D, DieInv t c.st D
  dies : ∀ h ∈ c.dies, h.epoch = c.st.epoch ∧ EntryAt t h.off ∧ Has c.st h.off
  iters : ∀ p k, (p, k) ∈ c.iters → p.epoch = c.st.epoch ∧ k.epoch = c.st.epoch ∧ Has c.st p.off ∧ Has c.st k.off ∧
    ∃ g, (p.off, g) ∈ t.occs ∧ g.isEntry = true ∧ g.pos = k.off

omit ht in
theorem good_ext {c : Client} (h : DieGood t c) {s : State} {D : Nat → Prop} (hi : DieInv t s D) (he : Ext c.st s) : DieGood t ⟨s, c.dies, c.iters⟩ := by
  refine ⟨⟨D, hi⟩, ?_, ?_⟩
  · intro x hx
    obtain ⟨h1, h2, h3⟩ := h.dies x hx
    exact ⟨h1.trans he.1.symm, h2, he.has h3⟩
  · intro p k hx
    obtain ⟨h1, h2, h3, h4, h5⟩ := h.iters p k hx
    exact ⟨h1.trans he.1.symm, h2.trans he.1.symm, he.has h3, he.has h4, h5⟩

omit ht in
theorem good_add {c : Client} (h : DieGood t c) {s : State} {D : Nat → Prop} (hi : DieInv t s D) (he : Ext c.st s) {x : Handle} (hx : x.epoch = s.epoch)
    (hx1 : EntryAt t x.off) (hx2 : Has s x.off) : DieGood t ⟨s, x :: c.dies, c.iters⟩ := by
  have hg := good_ext h hi he
  refine ⟨hg.inv, ?_, hg.iters⟩
  intro y hy
  rcases List.mem_cons.1 hy with rfl | hy
  · exact ⟨hx, hx1, hx2⟩
  · exact hg.dies y hy

omit ht in
theorem good_take {c : Client} (h : DieGood t c) {s : State} {D : Nat → Prop} (hi : DieInv t s D) (he : Ext c.st s) {p : Handle} (hp : p.epoch = c.st.epoch)
    (hph : Has c.st p.off) {g : PF} (hm : (p.off, g) ∈ t.occs) (hh : g.isEntry = true → Has s g.pos) : DieGood t (c.take p (curOf c.st.epoch g) s) := by
  unfold curOf
  cases hg : g.isEntry with
  | false => exact good_ext h hi he
  | true =>
    have := good_add h hi he (x := ⟨c.st.epoch, g.pos⟩) he.1.symm (.inr ⟨p.off, g, hm, hg, rfl⟩) (hh hg)
    refine ⟨this.inv, this.dies, ?_⟩
    intro p' k' hm'
    rcases List.mem_cons.1 hm' with hm' | hm'
    · injection hm' with e1 e2
      subst e1; subst e2
      exact ⟨hp.trans he.1.symm, he.1.symm, he.has hph, hh hg, g, hm, hg, rfl⟩
    · exact this.iters p' k' hm'

omit ht in
theorem handle_eq {h : Handle} {e o : Nat} (h1 : h.epoch = e) (h2 : h.off = o) : h = ⟨e, o⟩ := by
  cases h; cases h1; cases h2; rfl

theorem good_did {c c' : Client} (h : DieGood t c) (hd : Did u (EntryAt t) c c') : DieGood t c' := by
  obtain ⟨D, hi⟩ := h.inv
  cases hd with
  | root h1 =>
    obtain ⟨s', g1, g2, g3, g4⟩ := goto_root ht hi
    rw [h1] at g1
    injection g1 with g1; injection g1 with g0 g1; injection g0 with g0
    subst g0; subst g1
    exact good_add h g2 g3 g3.1.symm (.inl rfl) g4
  | ref ho h1 =>
    rename_i o x s
    rcases ho with ho | ⟨par, g, hm, hg, hgo⟩
    · obtain ⟨s', g1, g2, g3, g4⟩ := goto_root ht hi
      unfold root at g1
      rw [← ht.1, ← ho, h1] at g1
      injection g1 with g1; injection g1 with g0 g1; injection g0 with g0
      subst g0; subst g1
      exact good_add h g2 g3 g3.1.symm (.inl ho) (by rw [ho]; exact g4)
    · obtain ⟨s', g1, g2, g3, g4⟩ := goto_entry ht hi hm hg none (fun x hx => nomatch hx)
      rw [hgo, h1] at g1
      injection g1 with g1; injection g1 with g0 g1; injection g0 with g0
      subst g0; subst g1
      exact good_add h g2 g3 g3.1.symm (.inr ⟨par, g, hm, hg, hgo⟩) (by rw [← hgo]; exact g4)
  | begin hh h1 =>
    rename_i x r s
    obtain ⟨e1, e2, e3⟩ := h.dies x hh
    rcases e2 with e2 | ⟨par, g, hm, hg, hgo⟩
    · obtain ⟨rr, hrr⟩ := e3
      rw [e2] at hrr
      have hro := root_cell ht hi hrr
      have hx := handle_eq e1 e2
      obtain ⟨rt, kids⟩ := t
      cases kids with
      | none =>
        have : begin u x c.st = .ok (none, c.st) := begin_none (s := c.st) (by rw [hx]; exact hrr) hro.2.2.2
        rw [this] at h1
        injection h1 with h1; injection h1 with h1 h2
        subst h1; subst h2
        exact h
      | some k =>
        have hkm : (rt.off, k) ∈ (Tree.mk rt (some k)).occs := occs_self _ _
        obtain ⟨s', b1, b2, b3, _, b5⟩ := begin_at ht hi hkm hrr (by rw [hro.2.2.2]; exact ht.2.2.2.2.2.1.symm)
        rw [← (show x = ⟨c.st.epoch, rt.off⟩ from hx), h1] at b1
        injection b1 with b1; injection b1 with b0 b1
        subst b0; subst b1
        refine good_take h b2 b3 e1 (by rw [e2]; exact ⟨rr, hrr⟩) (by rw [e2]; exact hkm) ?_
        intro hk; obtain ⟨r', hr', _⟩ := b5 hk; exact ⟨r', hr'⟩
    · have hx := handle_eq e1 hgo.symm
      rcases enter ht hi hm hg (by rw [hgo]; exact e3) with ⟨e, rest, rfl, hb⟩ | ⟨e, k, rest, rfl, s', b1, b2, b3, b5⟩
      · rw [← hx, h1] at hb
        injection hb with hb; injection hb with h1 h2
        subst h1; subst h2
        exact h
      · rw [← hx, h1] at b1
        injection b1 with b1; injection b1 with b0 b1
        subst b0; subst b1
        refine good_take h b2 b3 e1 e3 (by rw [← hgo]; exact tree_kids hm) ?_
        intro hk; obtain ⟨r', hr', _⟩ := b5 hk; exact ⟨r', hr'⟩
  | next hh hf h1 =>
    rename_i p k r s fuel
    obtain ⟨e1, e2, e3, e4, g, hm, hg, hgo⟩ := h.iters p k hh
    have hfuel : g.sz ≤ fuel := by
      have := sz_stop (tree_laid ht hm)
      unfold enough at hf
      omega
    obtain ⟨s', D', n1, n2, n3, n4⟩ := next_at ht hi hm e3 hg (by rw [hgo]; exact e4) hfuel
    rw [← handle_eq e1 rfl, ← handle_eq e2 hgo.symm, h1] at n1
    injection n1 with n1; injection n1 with n0 n1
    subst n0; subst n1
    refine good_take h n2 n3 e1 e3 (tree_next hm) ?_
    intro hk; obtain ⟨r', hr', _⟩ := n4 hk; exact ⟨r', hr'⟩
  | parent hh hf h1 =>
    rename_i x o s fuel
    obtain ⟨e1, e2, e3⟩ := h.dies x hh
    rcases e2 with e2 | ⟨par, g, hm, hg, hgo⟩
    · have := parent_root ht hi (by rw [← e2]; exact e3) fuel
      rw [← handle_eq e1 e2, h1] at this
      injection this with this; injection this with _ this
      subst this
      exact h
    · obtain ⟨s', D', n1, n2, n3⟩ := parent_at ht hi hm hg (by rw [hgo]; exact e3) hf
      rw [← handle_eq e1 hgo.symm, h1] at n1
      injection n1 with n1; injection n1 with _ n1
      subst n1
      exact good_ext h n2 n3
  | purge =>
    refine ⟨⟨fun _ => False, ?_⟩, (fun _ h => nomatch h), (fun _ _ h => nomatch h)⟩
    have none : ∀ o, (purge c.st).cell (purge c.st).epoch o = none := fun o => hi.future _ _ (Nat.lt_succ_self _)
    refine ⟨?_, ?_, ?_, ?_, fun _ h => h.elim⟩
    · intro e o he
      exact hi.future e o (by have : c.st.epoch + 1 < e := he; omega)
    · intro o r hr; rw [none] at hr; cases hr
    · intro _ _ _ _ _ hr; rw [none] at hr; cases hr
    · intro _ _ _ _ _ _ _ hr; rw [none] at hr; cases hr

theorem good_history {c : Client} (h : History u (EntryAt t) c) : DieGood t c := by
  induction h with
  | start =>
    refine ⟨⟨fun _ => False, ?_⟩, (fun _ h => nomatch h), (fun _ _ h => nomatch h)⟩
    exact ⟨fun _ _ _ => rfl, (fun _ _ h => nomatch h), (fun _ _ _ _ _ h => nomatch h), (fun _ _ _ _ _ _ _ h => nomatch h), fun _ h => h.elim⟩
  | step _ hd ih => exact good_did ht ih hd

end

end Pstack.Props
