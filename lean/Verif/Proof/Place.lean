import Verif.Proof.Info
import Verif.Spec.Kids
import Verif.Model.FindEntry
/-
Going to the children of an entry and to the next of them, when there are several units.
-/
namespace Pstack.Props
open Pstack.Reader Pstack.Spec Pstack.Dwarf Pstack.Die

/-! ### There is one tree -/

theorem laid_inj {u : Die.Unit} {f : PF} : ∀ {g : PF}, Laid u f → Laid u g → f.pos = g.pos → f = g := by
  induction f with
  | done p s =>
    intro g h1 h2 hp
    cases g with
    | done p' s' =>
      have e : p = p' := hp
      subst e
      have := h1.2.2; rw [h2.2.2] at this; injection this with this; injection this with this; rw [this]
    | leaf e r => have e' : p = e.off := hp; have := h2.2.2.1; rw [← e', h1.2.2] at this; cases this
    | node e k r => have e' : p = e.off := hp; have := h2.2.2.1; rw [← e', h1.2.2] at this; cases this
  | leaf e r ih =>
    intro g h1 h2 hp
    cases g with
    | done p' s' => have e' : e.off = p' := hp; have := h2.2.2; rw [← e', h1.2.2.1] at this; cases this
    | leaf e' r' =>
      obtain ⟨_, _, a3, _, a5, a6⟩ := h1
      obtain ⟨_, _, b3, _, b5, b6⟩ := h2
      have eo : e.off = e'.off := hp
      rw [eo, b3] at a3; injection a3 with a3; injection a3 with q1 q2 q3 q4
      rw [ih a6 b6 (by rw [a5, b5, q4])]
      obtain ⟨_, _, _, _, _⟩ := e
      obtain ⟨_, _, _, _, _⟩ := e'
      simp only at *
      subst eo q1 q2 q3 q4; rfl
    | node e' k' r' =>
      obtain ⟨_, _, a3, a4, _⟩ := h1
      obtain ⟨_, _, b3, b4, _⟩ := h2
      have eo : e.off = e'.off := hp
      rw [eo, b3] at a3; injection a3 with a3; injection a3 with q1 q2 q3 q4
      rw [q1, a4] at b4; cases b4
  | node e k r ihk ihr =>
    intro g h1 h2 hp
    cases g with
    | done p' s' => have e' : e.off = p' := hp; have := h2.2.2; rw [← e', h1.2.2.1] at this; cases this
    | leaf e' r' =>
      obtain ⟨_, _, a3, a4, _⟩ := h1
      obtain ⟨_, _, b3, b4, _⟩ := h2
      have eo : e.off = e'.off := hp
      rw [eo, b3] at a3; injection a3 with a3; injection a3 with q1 q2 q3 q4
      rw [q1, a4] at b4; cases b4
    | node e' k' r' =>
      obtain ⟨_, _, a3, _, a5, a6, _, a8, a9⟩ := h1
      obtain ⟨_, _, b3, _, b5, b6, _, b8, b9⟩ := h2
      have eo : e.off = e'.off := hp
      rw [eo, b3] at a3; injection a3 with a3; injection a3 with q1 q2 q3 q4
      have hk := ihk a6 b6 (by rw [a5, b5, q4])
      rw [ihr a9 b9 (by rw [a8, b8, hk]), hk]
      obtain ⟨_, _, _, _, _⟩ := e
      obtain ⟨_, _, _, _, _⟩ := e'
      simp only at *
      subst eo q1 q2 q3 q4; rfl

theorem tree_unique {u : Die.Unit} {t t' : Tree} (h : LaidTree u t) (h' : LaidTree u t') : t = t' := by
  obtain ⟨r, k⟩ := t
  obtain ⟨r', k'⟩ := t'
  obtain ⟨a1, _, _, a4, a5⟩ := h
  obtain ⟨b1, _, _, b4, b5⟩ := h'
  have eo : r.off = r'.off := a1.trans b1.symm
  simp only at *
  rw [eo, b4] at a4; injection a4 with a4; injection a4 with q1 q2 q3 q4
  have hr : r = r' := by
    obtain ⟨_, _, _, _, _⟩ := r
    obtain ⟨_, _, _, _, _⟩ := r'
    simp only at *
    subst eo q1 q2 q3 q4; rfl
  subst hr
  cases k with
  | none =>
    cases k' with
    | none => rfl
    | some k' => simp only at a5 b5; rw [a5] at b5; cases b5.1
  | some k =>
    cases k' with
    | none => simp only at a5 b5; rw [b5] at a5; cases a5.1
    | some k' => simp only at a5 b5; rw [laid_inj a5.2.2 b5.2.2 (by rw [a5.2.1, b5.2.1])]

/-! ### Children -/

theorem forest_all {α : Type} (f : Forest α) : f.all = forestAll f := rfl

/-- The children of an entry, in the section. -/
theorem kids_place {R : Seen → Nat × DieEntry → Prop} (hR : ∀ v a, R v a → v.off = a.1) {a : Nat × DieEntry} {F : Forest (Nat × DieEntry)} (g : PF) :
    ∀ {par : Nat} {F0 : Forest (Nat × DieEntry)}, Forest.Rel R g.seen F0 → F0.KidsOf a F →
    (∃ p e r, (p, PF.leaf e r) ∈ g.occs par ∧ e.off = a.1 ∧ F = .done) ∨
    (∃ p e k r, (p, PF.node e k r) ∈ g.occs par ∧ e.off = a.1 ∧ Forest.Rel R k.seen F ∧ ∀ b ∈ F.all, b ∈ F0.all) := by
  induction g with
  | done p s => intro par F0 hr hk; cases hr; cases hk
  | leaf e r ih =>
    intro par F0 hr hk
    cases hr with
    | leaf h1 h2 =>
      cases hk with
      | leaf => exact .inl ⟨par, e, r, List.mem_cons_self, hR _ _ h1, rfl⟩
      | afterLeaf hk =>
        rcases ih (par := par) h2 hk with ⟨p, e', r', q1, q2, q3⟩ | ⟨p, e', k', r', q1, q2, q3, q4⟩
        · exact .inl ⟨p, e', r', List.mem_cons_of_mem _ q1, q2, q3⟩
        · exact .inr ⟨p, e', k', r', List.mem_cons_of_mem _ q1, q2, q3, fun b hb => List.mem_cons_of_mem _ (q4 b hb)⟩
  | node e k r ihk ihr =>
    intro par F0 hr hk
    cases hr with
    | node h1 h2 h3 =>
      cases hk with
      | node => 
        refine .inr ⟨par, e, k, r, List.mem_cons_self, hR _ _ h1, h2, fun b hb => ?_⟩
        simp only [Forest.all, Forest.firsts, List.map_cons, List.map_append]
        exact List.mem_cons_of_mem _ (List.mem_append_left _ hb)
      | under hk =>
        rcases ihk (par := e.off) h2 hk with ⟨p, e', r', q1, q2, q3⟩ | ⟨p, e', k', r', q1, q2, q3, q4⟩
        · exact .inl ⟨p, e', r', List.mem_cons_of_mem _ (List.mem_append_left _ q1), q2, q3⟩
        · refine .inr ⟨p, e', k', r', List.mem_cons_of_mem _ (List.mem_append_left _ q1), q2, q3, fun b hb => ?_⟩
          simp only [Forest.all, Forest.firsts, List.map_cons, List.map_append]
          exact List.mem_cons_of_mem _ (List.mem_append_left _ (q4 b hb))
      | afterNode hk =>
        rcases ihr (par := par) h3 hk with ⟨p, e', r', q1, q2, q3⟩ | ⟨p, e', k', r', q1, q2, q3, q4⟩
        · exact .inl ⟨p, e', r', List.mem_cons_of_mem _ (List.mem_append_right _ q1), q2, q3⟩
        · refine .inr ⟨p, e', k', r', List.mem_cons_of_mem _ (List.mem_append_right _ q1), q2, q3, fun b hb => ?_⟩
          simp only [Forest.all, Forest.firsts, List.map_cons, List.map_append]
          exact List.mem_cons_of_mem _ (List.mem_append_right _ (q4 b hb))

/-- Every entry has its children. -/
theorem kids_ex {α : Type} {a : α} {f : Forest α} (h : a ∈ f.all) : ∃ k, f.KidsOf a k := by
  induction f with
  | done => cases h
  | leaf b r ih =>
    rcases List.mem_cons.1 h with h | h
    · exact ⟨_, by rw [h]; exact .leaf⟩
    · obtain ⟨k, hk⟩ := ih h; exact ⟨k, .afterLeaf hk⟩
  | node b k r ihk ihr =>
    simp only [Forest.all, Forest.firsts, List.map_cons, List.map_append] at h
    rcases List.mem_cons.1 h with h | h
    · exact ⟨_, by rw [h]; exact .node⟩
    · rcases List.mem_append.1 h with h | h
      · obtain ⟨k, hk⟩ := ihk h; exact ⟨k, .under hk⟩
      · obtain ⟨k, hk⟩ := ihr h; exact ⟨k, .afterNode hk⟩

theorem tree_kids_ex {α : Type} {a : α} {t : DieTree α} (h : a ∈ t.all) : ∃ k, t.KidsOf a k := by
  obtain ⟨r, k⟩ := t
  cases k with
  | none =>
    simp only [DieTree.all, DieTree.firsts, List.map_cons, List.map_nil, List.mem_singleton] at h
    exact ⟨_, by rw [h]; exact .alone⟩
  | some k =>
    simp only [DieTree.all, DieTree.firsts, List.map_cons] at h
    rcases List.mem_cons.1 h with h | h
    · exact ⟨_, by rw [h]; exact .root⟩
    · obtain ⟨k', hk⟩ := kids_ex h; exact ⟨k', .under hk⟩

theorem kids_mem {α : Type} {f : Forest α} {a : α} {k : Forest α} (h : f.KidsOf a k) : a ∈ f.all := by
  induction h with
  | leaf => exact List.mem_cons_self
  | node => exact List.mem_cons_self
  | under _ ih =>
    simp only [Forest.all, Forest.firsts, List.map_cons, List.map_append] at ih ⊢
    exact List.mem_cons_of_mem _ (List.mem_append_left _ ih)
  | afterLeaf _ ih => exact List.mem_cons_of_mem _ ih
  | afterNode _ ih =>
    simp only [Forest.all, Forest.firsts, List.map_cons, List.map_append] at ih ⊢
    exact List.mem_cons_of_mem _ (List.mem_append_right _ ih)

theorem kids_trans {α : Type} {f : Forest α} {a b : α} {k l : Forest α} (h : f.KidsOf a k) (h' : k.KidsOf b l) : f.KidsOf b l := by
  induction h with
  | leaf => cases h'
  | node => exact .under h'
  | under _ ih => exact .under (ih h')
  | afterLeaf _ ih => exact .afterLeaf (ih h')
  | afterNode _ ih => exact .afterNode (ih h')

theorem tree_kids_trans {α : Type} {t : DieTree α} {a b : α} {k l : Forest α} (h : t.KidsOf a k) (h' : k.KidsOf b l) : t.KidsOf b l := by
  cases h with
  | alone => cases h'
  | root => exact .under h'
  | under h => exact .under (kids_trans h h')

/-- A place in the list of children of the entry at `par`: in the section, and among the entries of the unit. -/
structure PlaceOf (d : Sections) (uo : Nat) (x : DieUnit) (t : Tree) (par : Nat) (g : PF) (F : Forest (Nat × DieEntry)) : Prop where
  occ : (par, g) ∈ t.occs
  rel : Forest.Rel (DieShows d.info x.sizes) g.seen F
  mem : ∀ a ∈ F.all, a ∈ (x.placed uo).all

/-- What is after the first. -/
def _root_.Pstack.Spec.Forest.rest {α : Type} : Forest α → Forest α
  | .done => .done
  | .leaf _ r => r
  | .node _ _ r => r

theorem head_rel {R : Seen → Nat × DieEntry → Prop} (hR : ∀ v a, R v a → v.off = a.1) {g : PF} {F : Forest (Nat × DieEntry)} (h : Forest.Rel R g.seen F) (ep : Nat) :
    curOf ep g = F.head?.map (fun a => ⟨ep, a.1⟩) := by
  cases g <;> cases h <;> simp only [curOf, PF.isEntry, Forest.head?, PF.pos, Option.map] <;> first | rfl | (rename_i h _; simp [← hR _ _ h]) | (rename_i h _ _; simp [← hR _ _ h])

theorem head_entry {R : Seen → Nat × DieEntry → Prop} (hR : ∀ v a, R v a → v.off = a.1) {g : PF} {F : Forest (Nat × DieEntry)} (h : Forest.Rel R g.seen F) {a : Nat × DieEntry}
    (ha : F.head? = some a) : g.isEntry = true ∧ g.pos = a.1 ∧ a ∈ F.all := by
  cases g <;> cases h <;> simp only [Forest.head?] at ha <;> cases ha
  · rename_i h; exact ⟨rfl, hR _ _ h, List.mem_cons_self⟩
  · rename_i h; exact ⟨rfl, hR _ _ h, List.mem_cons_self⟩

theorem shows_off {d : List Byte} {sz : Sizes} (v : Seen) (a : Nat × DieEntry) (h : DieShows d sz v a) : v.off = a.1 := h.1

theorem PlaceOf.next {d : Sections} {uo : Nat} {x : DieUnit} {t : Tree} {par : Nat} {g : PF} {F : Forest (Nat × DieEntry)} (h : PlaceOf d uo x t par g F) :
    PlaceOf d uo x t par g.next F.rest := by
  refine ⟨tree_next h.occ, ?_, ?_⟩
  · cases g <;> (have := h.rel; cases this) <;> first | exact .done | assumption
  · intro a ha
    refine h.mem a ?_
    cases F with
    | done => exact ha
    | leaf b r => exact List.mem_cons_of_mem _ ha
    | node b k r =>
      simp only [Forest.all, Forest.firsts, List.map_cons, List.map_append]
      exact List.mem_cons_of_mem _ (List.mem_append_right _ ha)

section
variable {d : Sections} {xs : List DieUnit} (hok : InfoOk d xs)
include hok

omit hok in
/-- Change what is remembered of one unit. -/
theorem ist_setSt {s : IState} (hs : ISt d xs s) {uo : Nat} {x : DieUnit} (hp : (uo, x) ∈ placeUnits 0 xs) {u : Die.Unit} {t : Tree} (hop : UnitOpened d uo x u t) {t' : State} {D : Nat → Prop}
    (hi : DieInv t t' D) (he : Ext (s.st uo) t') : ISt d xs (s.setSt uo t') ∧ IExt s (s.setSt uo t') := by
  have hst : (s.setSt uo t').st uo = t' := by simp [IState.setSt]
  have hst' : ∀ o, o ≠ uo → (s.setSt uo t').st o = s.st o := by intro o ho; simp [IState.setSt, ho]
  refine ⟨⟨hs.loaded, ?_⟩, ?_, rfl⟩
  · intro uo2 x2 u2 t2 hp2 ho2
    by_cases h : uo2 = uo
    · subst h
      have hx : x2 = x := by
        have := units_inj hp2 hp (o := uo2) ⟨Nat.le_refl _, by have := unit_ne x2; simp only; omega⟩ ⟨Nat.le_refl _, by have := unit_ne x; simp only; omega⟩
        injection this
      subst hx
      have : u2 = u := by have := ho2.isOpen; rw [hop.isOpen] at this; injection this with this; exact this.symm
      subst this
      have := tree_unique ho2.laid hop.laid
      subst this
      rw [hst]; exact ⟨D, hi⟩
    · rw [hst' _ h]; exact hs.inv uo2 x2 u2 t2 hp2 ho2
  · intro o2
    by_cases h : o2 = uo
    · subst h; rw [hst]; exact he
    · rw [hst' _ h]; exact Ext.refl _

omit hok in
theorem GoodDie.extR {s s' : IState} {y : DIE} {uo : Nat} {x : DieUnit} {o : Nat} {e : DieEntry}
    (h : GoodDie d xs s y uo x o e) (he : ∀ uo, Ext (s.st uo) (s'.st uo)) : GoodDie d xs s' y uo x o e :=
  ⟨h.isOpen, h.off, by rw [h.handle, (he uo).1], h.entry, (he uo).has h.has⟩

/-- `children().begin()`: the first of the children. -/
theorem kidsBegin_spec {s : IState} (hs : ISt d xs s) {y : DIE} {uo : Nat} {x : DieUnit} {o : Nat} {e : DieEntry} (hg : GoodDie d xs s y uo x o e) {t : Tree} (hop : UnitOpened d uo x y.unit t)
    {F : Forest (Nat × DieEntry)} (hF : (x.placed uo).KidsOf (o, e) F) :
    ∃ s', kidsBegin y s = .ok (F.head?.map (fun a => ⟨y.unit, ⟨(s.st uo).epoch, a.1⟩⟩), s') ∧ ISt d xs s' ∧ IExt s s' ∧
      (∀ a, F.head? = some a → GoodDie d xs s' ⟨y.unit, ⟨(s.st uo).epoch, a.1⟩⟩ uo x a.1 a.2) ∧ (F = .done ∨ ∃ g, PlaceOf d uo x t o g F) := by
  obtain ⟨D, hD⟩ := hs.inv uo x _ t hg.entry.1 hop
  have key : ∀ (g : PF), PlaceOf d uo x t o g F → (∃ s1, begin y.unit ⟨(s.st uo).epoch, o⟩ (s.st uo) = .ok (curOf (s.st uo).epoch g, s1) ∧ DieInv t s1 D ∧ Ext (s.st uo) s1 ∧
      (g.isEntry = true → Has s1 g.pos)) → ∃ s', kidsBegin y s = .ok (F.head?.map (fun a => ⟨y.unit, ⟨(s.st uo).epoch, a.1⟩⟩), s') ∧ ISt d xs s' ∧ IExt s s' ∧
      (∀ a, F.head? = some a → GoodDie d xs s' ⟨y.unit, ⟨(s.st uo).epoch, a.1⟩⟩ uo x a.1 a.2) ∧ (F = .done ∨ ∃ g, PlaceOf d uo x t o g F) := by
    intro g hP ⟨s1, b1, b2, b3, b4⟩
    obtain ⟨k1, k2⟩ := ist_setSt hs hg.entry.1 hop b2 b3
    refine ⟨s.setSt uo s1, ?_, k1, k2, ?_, .inr ⟨g, hP⟩⟩
    · unfold kidsBegin
      rw [hg.off, hg.handle, b1, Res.bind_ok, head_rel shows_off hP.rel]
      cases F.head? <;> rfl
    · intro a ha
      obtain ⟨c1, c2, c3⟩ := head_entry shows_off hP.rel ha
      have hst : (s.setSt uo s1).st uo = s1 := by simp [IState.setSt]
      refine ⟨hg.isOpen, hg.off, by rw [hst, b3.1], ⟨hg.entry.1, hP.mem a c3⟩, ?_⟩
      rw [hst, ← c2]; exact b4 c1
  have none : begin y.unit ⟨(s.st uo).epoch, o⟩ (s.st uo) = .ok (none, s.st uo) → F = .done →
      ∃ s', kidsBegin y s = .ok (F.head?.map (fun a => ⟨y.unit, ⟨(s.st uo).epoch, a.1⟩⟩), s') ∧ ISt d xs s' ∧ IExt s s' ∧
      (∀ a, F.head? = some a → GoodDie d xs s' ⟨y.unit, ⟨(s.st uo).epoch, a.1⟩⟩ uo x a.1 a.2) ∧ (F = .done ∨ ∃ g, PlaceOf d uo x t o g F) := by
    intro hb he
    subst he
    obtain ⟨k1, k2⟩ := ist_setSt hs hg.entry.1 hop hD (Ext.refl _)
    refine ⟨s.setSt uo (s.st uo), ?_, k1, k2, (fun a ha => nomatch ha), .inl rfl⟩
    unfold kidsBegin
    rw [hg.off, hg.handle, hb]; rfl
  have hall : (x.placed uo).all = (x.placed uo).all := rfl
  have hrel := hop.rel
  have hlaid := hop.laid
  cases hpl : x.placed uo with
  | mk r0 k0 =>
  rw [hpl] at hrel hF
  obtain ⟨rt, kids⟩ := t
  obtain ⟨rr, hrr⟩ := hg.has
  have mems : ∀ {k : Forest (Nat × DieEntry)}, k0 = some k → ∀ a ∈ k.all, a ∈ (x.placed uo).all := by
    intro k hk a ha
    rw [hpl, hk]
    simp only [DieTree.all, DieTree.firsts, List.map_cons]
    exact List.mem_cons_of_mem _ ha
  cases kids with
  | none =>
    cases hrel with
    | leaf hr0 =>
      cases hF with
      | alone =>
        have ho : rt.off = o := hr0.1
        rw [← ho] at hrr
        have hro := root_cell hlaid hD hrr
        refine none ?_ rfl
        rw [← ho]
        exact begin_none (s := s.st uo) (h := ⟨(s.st uo).epoch, rt.off⟩) hrr hro.2.2.2
  | some kg =>
    cases hrel with
    | @node _ _ _ k1 hr0 hk0 =>
      have below : k1.KidsOf (o, e) F → _ := fun hK => kids_place (R := DieShows d.info x.sizes) shows_off kg (par := rt.off) hk0 hK
      cases hF with
      | root =>
        have ho : rt.off = o := hr0.1
        have hkm : (rt.off, kg) ∈ (Tree.mk rt (some kg)).occs := occs_self _ _
        rw [← ho] at hrr
        have hro := root_cell hlaid hD hrr
        refine key kg ⟨by rw [← ho]; exact hkm, hk0, mems rfl⟩ ?_
        obtain ⟨s', b1, b2, b3, _, b4⟩ := begin_at hlaid hD hkm hrr (by rw [hro.2.2.2]; exact hlaid.2.2.2.2.2.1.symm)
        rw [ho] at b1
        exact ⟨s', b1, b2, b3, fun hge => by obtain ⟨r1, q1, _⟩ := b4 hge; exact ⟨r1, q1⟩⟩
      | under hK =>
        rcases below hK with ⟨p, e', r', q1, q2, q3⟩ | ⟨p, e', k', r', q1, q2, q3, q4⟩
        · have hm : (p, PF.leaf e' r') ∈ (Tree.mk rt (some kg)).occs := q1
          have q2 : e'.off = o := q2
          rw [← q2] at hrr
          have hc := cell_at hlaid hD hm hrr
          refine none ?_ q3
          rw [← q2]
          exact begin_none (s := s.st uo) (h := ⟨(s.st uo).epoch, e'.off⟩) hrr hc.2.2.2.1
        · have hm : (p, PF.node e' k' r') ∈ (Tree.mk rt (some kg)).occs := q1
          have q2 : e'.off = o := q2
          rw [← q2] at hrr
          have hc := cell_at hlaid hD hm hrr
          refine key k' ⟨by rw [← q2]; exact tree_kids hm, q3, fun a ha => mems rfl a (q4 a ha)⟩ ?_
          obtain ⟨s', b1, b2, b3, _, b4⟩ := begin_at hlaid hD (tree_kids hm) hrr (by rw [hc.2.2.2.1]; exact (tree_laid hlaid hm).2.2.2.2.1.symm)
          rw [q2] at b1
          exact ⟨s', b1, b2, b3, fun hge => by obtain ⟨r1, q1, _⟩ := b4 hge; exact ⟨r1, q1⟩⟩

omit hok in
/-- `++it`: the next of the children. -/
theorem kidsNext_spec {s : IState} (hs : ISt d xs s) {y p : DIE} {uo : Nat} {x : DieUnit} {par : Nat} {ep : DieEntry} (hpar : GoodDie d xs s p uo x par ep) {t : Tree}
    (hop : UnitOpened d uo x y.unit t) {g : PF} {F : Forest (Nat × DieEntry)} (hP : PlaceOf d uo x t par g F) {a : Nat × DieEntry} (ha : F.head? = some a) (hg : GoodDie d xs s y uo x a.1 a.2) :
    ∃ s', kidsNext y p s = .ok (F.rest.head?.map (fun a => ⟨y.unit, ⟨(s.st uo).epoch, a.1⟩⟩), s') ∧ ISt d xs s' ∧ IExt s s' ∧
      (∀ a, F.rest.head? = some a → GoodDie d xs s' ⟨y.unit, ⟨(s.st uo).epoch, a.1⟩⟩ uo x a.1 a.2) := by
  obtain ⟨D, hD⟩ := hs.inv uo x _ t hg.entry.1 hop
  obtain ⟨c1, c2, _⟩ := head_entry shows_off hP.rel ha
  have hfuel : g.sz ≤ enough y.unit := by
    have := sz_stop (tree_laid hop.laid hP.occ)
    unfold enough; omega
  obtain ⟨s1, D1, b1, b2, b3, b4⟩ := next_at hop.laid hD hP.occ hpar.has c1 (by rw [c2]; exact hg.has) hfuel
  obtain ⟨k1, k2⟩ := ist_setSt hs hg.entry.1 hop b2 b3
  have hst : (s.setSt uo s1).st uo = s1 := by simp [IState.setSt]
  refine ⟨s.setSt uo s1, ?_, k1, k2, ?_⟩
  · unfold kidsNext
    rw [hg.off, hg.handle, hpar.handle, ← c2, b1, Res.bind_ok, head_rel shows_off hP.next.rel]
    cases F.rest.head? <;> rfl
  · intro a' ha'
    obtain ⟨c1', c2', c3'⟩ := head_entry shows_off hP.next.rel ha'
    refine ⟨hg.isOpen, hg.off, by rw [hst, b3.1], ⟨hg.entry.1, hP.next.mem a' c3'⟩, ?_⟩
    rw [hst, ← c2']
    obtain ⟨r, hr, _⟩ := b4 c1'
    exact ⟨r, hr⟩

end

end Pstack.Props
