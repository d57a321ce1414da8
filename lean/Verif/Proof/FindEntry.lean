import Verif.Proof.Contains
import Verif.Spec.FindEntry
/-
The search for the entry of an address.
-/
namespace Pstack.Props
open Pstack.Reader Pstack.Spec Pstack.Dwarf Pstack.Die

/-! ### Lists and what is below -/

theorem kids_sub {α : Type} {f : Forest α} {a : α} {k : Forest α} (h : f.KidsOf a k) : (a :: k.all).Sublist f.all := by
  induction h with
  | leaf => exact List.Sublist.cons₂ _ (List.nil_sublist _)
  | node =>
    simp only [Forest.all, Forest.firsts, List.map_cons, List.map_append]
    exact List.Sublist.cons₂ _ (List.sublist_append_left _ _)
  | under _ ih =>
    simp only [Forest.all, Forest.firsts, List.map_cons, List.map_append] at ih ⊢
    exact (ih.trans (List.sublist_append_left _ _)).trans (List.sublist_cons_self _ _)
  | afterLeaf _ ih => exact ih.trans (List.sublist_cons_self _ _)
  | afterNode _ ih =>
    simp only [Forest.all, Forest.firsts, List.map_cons, List.map_append] at ih ⊢
    exact (ih.trans (List.sublist_append_right _ _)).trans (List.sublist_cons_self _ _)

theorem tree_kids_sub {α : Type} {t : DieTree α} {a : α} {k : Forest α} (h : t.KidsOf a k) : (a :: k.all).Sublist t.all := by
  cases h with
  | alone => exact List.Sublist.refl _
  | root => exact List.Sublist.refl _
  | under h => exact (kids_sub h).trans (List.sublist_cons_self _ _)

theorem reaches_mem {α : Type} {P : α → Prop} {f : Forest α} {a : α} (h : f.Reaches P a) : a ∈ f.all := by
  induction h with
  | leaf => exact List.mem_cons_self
  | node => exact List.mem_cons_self
  | under _ _ ih =>
    simp only [Forest.all, Forest.firsts, List.map_cons, List.map_append] at ih ⊢
    exact List.mem_cons_of_mem _ (List.mem_append_left _ ih)
  | afterLeaf _ ih => exact List.mem_cons_of_mem _ ih
  | afterNode _ ih =>
    simp only [Forest.all, Forest.firsts, List.map_cons, List.map_append] at ih ⊢
    exact List.mem_cons_of_mem _ (List.mem_append_right _ ih)

theorem reaches_congr {α : Type} {P Q : α → Prop} {f : Forest α} {a : α} (h : f.Reaches P a) (hpq : ∀ b ∈ f.all, P b → Q b) : f.Reaches Q a := by
  induction h with
  | leaf => exact .leaf
  | node => exact .node
  | under hp _ ih =>
    simp only [Forest.all, Forest.firsts, List.map_cons, List.map_append, List.mem_cons, List.mem_append] at hpq ih
    exact .under (hpq _ (.inl rfl) hp) (ih (fun b hb => hpq b (.inr (.inl hb))))
  | afterLeaf _ ih => exact .afterLeaf (ih (fun b hb => hpq b (List.mem_cons_of_mem _ hb)))
  | afterNode _ ih =>
    simp only [Forest.all, Forest.firsts, List.map_cons, List.map_append, List.mem_cons, List.mem_append] at hpq ih
    exact .afterNode (ih (fun b hb => hpq b (.inr (.inr hb))))

/-- Rounds of the search that are enough. -/
def searchCost {α : Type} : Forest α → Nat
  | .done => 1
  | .leaf _ r => 4 + searchCost r
  | .node _ k r => 4 + searchCost k + searchCost r

/-! ### The search, when the entries say `w` -/

/-- In the list or below. -/
def HitW (w : Nat × DieEntry → Contains) (t : Nat) (F : Forest (Nat × DieEntry)) (a : Nat × DieEntry) : Prop :=
  F.Reaches (fun b => w b ≠ .no) a ∧ a.2.decl.tag = t ∧ w a = .yes

def HitFromW (w : Nat × DieEntry → Contains) (t : Nat) (skip : Bool) (a0 : Nat × DieEntry) (F : Forest (Nat × DieEntry)) (a : Nat × DieEntry) : Prop :=
  (skip = false ∧ a = a0 ∧ a0.2.decl.tag = t ∧ w a0 = .yes) ∨ (w a0 ≠ .no ∧ HitW w t F a)

theorem hitW_leaf {w : Nat × DieEntry → Contains} {t : Nat} {a0 a : Nat × DieEntry} {r : Forest (Nat × DieEntry)} :
    HitW w t (.leaf a0 r) a ↔ HitFromW w t false a0 .done a ∨ HitW w t r a := by
  constructor
  · rintro ⟨h, h1, h2⟩
    cases h with
    | leaf => exact .inl (.inl ⟨rfl, rfl, h1, h2⟩)
    | afterLeaf h => exact .inr ⟨h, h1, h2⟩
  · rintro ((⟨_, rfl, h1, h2⟩ | ⟨_, h, _⟩) | ⟨h, h1, h2⟩)
    · exact ⟨.leaf, h1, h2⟩
    · cases h
    · exact ⟨.afterLeaf h, h1, h2⟩

theorem hitW_node {w : Nat × DieEntry → Contains} {t : Nat} {a0 a : Nat × DieEntry} {k r : Forest (Nat × DieEntry)} :
    HitW w t (.node a0 k r) a ↔ HitFromW w t false a0 k a ∨ HitW w t r a := by
  constructor
  · rintro ⟨h, h1, h2⟩
    cases h with
    | node => exact .inl (.inl ⟨rfl, rfl, h1, h2⟩)
    | under hp h => exact .inl (.inr ⟨hp, h, h1, h2⟩)
    | afterNode h => exact .inr ⟨h, h1, h2⟩
  · rintro ((⟨_, rfl, h1, h2⟩ | ⟨hp, h, h1, h2⟩) | ⟨h, h1, h2⟩)
    · exact ⟨.node, h1, h2⟩
    · exact ⟨.under hp h, h1, h2⟩
    · exact ⟨.afterNode h, h1, h2⟩

/-- What the search gives, with the state after it. -/
def FirstGood (d : Sections) (xs : List DieUnit) (s : IState) (uo : Nat) (x : DieUnit) (H : Nat × DieEntry → Prop) (r : Option DIE) : Prop :=
  (r = none ∧ ∀ a, ¬H a) ∨ ∃ z a, r = some z ∧ GoodDie d xs s z uo x a.1 a.2 ∧ H a ∧ ∀ b, H b → a.1 ≤ b.1

theorem FirstGood.congr {d : Sections} {xs : List DieUnit} {s : IState} {uo : Nat} {x : DieUnit} {H K : Nat × DieEntry → Prop} {r : Option DIE}
    (h : FirstGood d xs s uo x H r) (hk : ∀ a, K a ↔ H a) : FirstGood d xs s uo x K r := by
  have : K = H := funext fun a => propext (hk a)
  rw [this]; exact h

section
variable {d : Sections} {xs : List DieUnit} (hok : InfoOk d xs) (hfit : SectionsFit d) (hrefs : RefsOk xs) {fuel : Nat} {addr : BitVec 64} {uo : Nat} {x : DieUnit}
  (w : Nat × DieEntry → Contains)
include hok hfit hrefs

/-- The search in the children of an entry gives the first of them. -/
def LoopRight (d : Sections) (xs : List DieUnit) (fuel : Nat) (addr : BitVec 64) (uo : Nat) (x : DieUnit) (w : Nat × DieEntry → Contains) (t : Nat) (T : Tree) (F : Forest (Nat × DieEntry)) : Prop :=
  ∀ (depth : Nat) (p : DIE) (s : IState) (par : Nat) (ep : DieEntry), searchCost F ≤ depth → ISt d xs s → RangesRight d xs s → GoodDie d xs s p uo x par ep → UnitOpened d uo x p.unit T →
    (F = .done ∨ ∃ g, PlaceOf d uo x T par g F) → (∀ a, F.head? = some a → GoodDie d xs s ⟨p.unit, ⟨(s.st uo).epoch, a.1⟩⟩ uo x a.1 a.2) →
    ∃ r s', findEntry.loop d fuel addr t depth (F.head?.map (fun a => ⟨p.unit, ⟨(s.st uo).epoch, a.1⟩⟩)) p s = .ok (r, s') ∧ KeptR d xs s s' ∧ RangesRight d xs s' ∧
      FirstGood d xs s' uo x (HitW w t F) r

variable {A : Nat × DieEntry → Prop} (hw : ∀ a, A a → ∀ (y : DIE) (s : IState), ISt d xs s → RangesRight d xs s → GoodDie d xs s y uo x a.1 a.2 → ∃ s', containsAddress d fuel y addr s = .ok (w a, s'))
include hw

/-- One entry, and what is below. -/
theorem search_one {t : Nat} {T : Tree} {a : Nat × DieEntry} {K : Forest (Nat × DieEntry)} (hA : A a) (hK : (x.placed uo).KidsOf a K) (hl : LoopRight d xs fuel addr uo x w t T K)
    {depth : Nat} (hd : searchCost K + 1 ≤ depth) {y : DIE} {s : IState} (hs : ISt d xs s) (hr : RangesRight d xs s) (hg : GoodDie d xs s y uo x a.1 a.2) (hop : UnitOpened d uo x y.unit T) (skip : Bool) :
    ∃ r s', findEntry d fuel addr t depth y skip s = .ok (r, s') ∧ KeptR d xs s s' ∧ RangesRight d xs s' ∧ FirstGood d xs s' uo x (HitFromW w t skip a K) r := by
  obtain ⟨n, rfl⟩ : ∃ n, depth = n + 1 := ⟨depth - 1, by omega⟩
  obtain ⟨s1, h1⟩ := hw a hA y s hs hr hg
  have k1 := containsAddress_keep hok hrefs hs ⟨uo, x, _, _, hg⟩ h1
  have r1 := containsAddress_right hok hfit hrefs hs hr hg h1
  have hg1 := hg.extR k1.2
  have hpw : ∀ b ∈ K.all, a.1 < b.1 := by
    have := (placed_pairwise x uo).2.sublist (tree_kids_sub hK)
    exact (List.pairwise_cons.1 this).1
  have kids : w a ≠ .no → (skip = false ∧ a.2.decl.tag = t ∧ w a = .yes → False) → ∃ r s', (do
      let (k, s) ← kidsBegin y s1
      findEntry.loop d fuel addr t n k y s) = Res.ok (r, s') ∧ KeptR d xs s s' ∧ RangesRight d xs s' ∧ FirstGood d xs s' uo x (HitFromW w t skip a K) r := by
    intro hne hself
    obtain ⟨s2, b1, b2, b3, b4, b5⟩ := kidsBegin_spec hok k1.1 hg1 hop (show (x.placed uo).KidsOf (a.1, a.2) K from hK)
    have hep : (s1.st uo).epoch = (s2.st uo).epoch := (b3.1 uo).1.symm
    rw [hep] at b1 b4
    obtain ⟨r, s', c1, c2, c3, c4⟩ := hl n y s2 a.1 a.2 (by omega) b2 (r1.of_eq b3.2) (hg1.ext b3) hop b5 b4
    refine ⟨r, s', ?_, k1.trans (KeptR.trans ⟨b2, b3.1⟩ c2), c3, c4.congr ?_⟩
    · rw [b1, Res.bind_ok]; exact c1
    · intro b
      constructor
      · rintro (⟨h1, h2, h3, h4⟩ | ⟨_, h⟩)
        · exact absurd ⟨h1, h3, h4⟩ hself
        · exact h
      · intro h; exact .inr ⟨hne, h⟩
  cases hwa : w a with
  | no =>
    rw [hwa] at h1
    refine ⟨none, s1, ?_, k1, r1, .inl ⟨rfl, ?_⟩⟩
    · rw [findEntry, h1, Res.bind_ok]
    · rintro b (⟨_, _, _, h⟩ | ⟨h, _⟩)
      · rw [hwa] at h; cases h
      · exact h hwa
  | unknown =>
    rw [hwa] at h1
    obtain ⟨r, s', c1, c2⟩ := kids (by rw [hwa]; nofun) (by rintro ⟨_, _, h⟩; rw [hwa] at h; cases h)
    refine ⟨r, s', ?_, c2⟩
    rw [findEntry, h1, Res.bind_ok]; exact c1
  | yes =>
    rw [hwa] at h1
    obtain ⟨raw, q1, q2, _⟩ := good_raw hok k1.1 hg1
    by_cases hc : skip = false ∧ a.2.decl.tag = t
    · refine ⟨some y, s1, ?_, k1, r1, .inr ⟨y, a, rfl, hg1, .inl ⟨hc.1, rfl, hc.2, hwa⟩, ?_⟩⟩
      · rw [findEntry, h1, Res.bind_ok]
        simp only
        rw [q1, Res.bind_ok, q2, if_pos hc]
      · rintro b (⟨_, rfl, _⟩ | ⟨_, h, _⟩)
        · exact Nat.le_refl _
        · exact Nat.le_of_lt (hpw b (reaches_mem h))
    · obtain ⟨r, s', c1, c2⟩ := kids (by rw [hwa]; nofun) (by rintro ⟨h1, h2, _⟩; exact hc ⟨h1, h2⟩)
      refine ⟨r, s', ?_, c2⟩
      rw [findEntry, h1, Res.bind_ok]
      simp only
      rw [q1, Res.bind_ok, q2, if_neg hc]; exact c1

/-- The search in a list. -/
theorem search_loop {t : Nat} {T : Tree} (F : Forest (Nat × DieEntry)) : (∀ a ∈ F.all, A a) → (∀ a K, F.KidsOf a K → (x.placed uo).KidsOf a K) → F.all.Pairwise (fun a b => a.1 < b.1) →
    LoopRight d xs fuel addr uo x w t T F := by
  -- one entry and then the others
  have step : ∀ (F R K : Forest (Nat × DieEntry)) (a : Nat × DieEntry), F.head? = some a → F.rest = R → A a → (x.placed uo).KidsOf a K → searchCost K + 3 + searchCost R ≤ searchCost F →
      (∀ b, HitW w t F b ↔ HitFromW w t false a K b ∨ HitW w t R b) → (∀ b ∈ R.all, ∀ c, HitFromW w t false a K c → c.1 ≤ b.1) →
      LoopRight d xs fuel addr uo x w t T K → LoopRight d xs fuel addr uo x w t T R → LoopRight d xs fuel addr uo x w t T F := by
    intro F R K a hF hR hA hK hcost hhit hord hlK hlR depth p s par ep hd hs hr hg hop hP hh
    obtain ⟨n, rfl⟩ : ∃ n, depth = n + 1 := ⟨depth - 1, by omega⟩
    have hga := hh a hF
    obtain ⟨r1, s1, b1, b2, b3, b4⟩ := search_one hok hfit hrefs w hw hA hK hlK (depth := n) (by omega) hs hr hga hop false
    rcases b4 with ⟨e1, e2⟩ | ⟨z, c, e1, e2, e3, e4⟩
    · subst e1
      rcases hP with e | ⟨g, hP⟩
      · rw [e] at hF; cases hF
      have hga1 := hga.extR b2.2
      have hg1 := hg.extR b2.2
      obtain ⟨s2, c1, c2, c3, c4⟩ := kidsNext_spec (y := ⟨p.unit, ⟨(s.st uo).epoch, a.1⟩⟩) b2.1 hg1 hop hP hF hga1
      have hep : (s1.st uo).epoch = (s2.st uo).epoch := (c3.1 uo).1.symm
      rw [hep, hR] at c1 c4
      obtain ⟨r, s', q1, q2, q3, q4⟩ := hlR n p s2 par ep (by omega) c2 (b3.of_eq c3.2) (hg1.ext c3) hop (.inr ⟨_, hR ▸ hP.next⟩) c4
      refine ⟨r, s', ?_, b2.trans (KeptR.trans ⟨c2, c3.1⟩ q2), q3, q4.congr ?_⟩
      · rw [hF, Option.map_some, findEntry.loop, b1, Res.bind_ok]
        simp only
        rw [c1, Res.bind_ok]; exact q1
      · intro b
        rw [hhit]
        exact ⟨fun h => h.resolve_left (e2 b), .inr⟩
    · subst e1
      refine ⟨some z, s1, ?_, b2, b3, .inr ⟨z, c, rfl, e2, (hhit c).2 (.inl e3), ?_⟩⟩
      · rw [hF, Option.map_some, findEntry.loop, b1, Res.bind_ok]
      · intro b hb
        rcases (hhit b).1 hb with hb | hb
        · exact e4 b hb
        · exact hord b (reaches_mem hb.1) c e3
  have hdone : LoopRight d xs fuel addr uo x w t T .done := by
    intro depth p s par ep hd hs hr hg hop hP hh
    obtain ⟨n, rfl⟩ : ∃ n, depth = n + 1 := ⟨depth - 1, by simp only [searchCost] at hd; omega⟩
    refine ⟨none, s, ?_, ⟨hs, fun _ => Ext.refl _⟩, hr, .inl ⟨rfl, ?_⟩⟩
    · rw [show (Forest.done : Forest (Nat × DieEntry)).head? = none from rfl, Option.map_none, findEntry.loop]
    · rintro a ⟨h, _⟩; cases h
  induction F with
  | done => intro _ _ _; exact hdone
  | leaf a r ih =>
    intro hA hsub hpw
    have hpw' := List.pairwise_cons.1 (show (a :: r.all).Pairwise _ from hpw)
    refine step _ r .done a rfl rfl (hA a List.mem_cons_self) (hsub _ _ .leaf) (by simp only [searchCost]; omega) (fun b => hitW_leaf) ?_ hdone (ih (fun b hb => hA b (List.mem_cons_of_mem _ hb)) (fun b K h => hsub b K (.afterLeaf h)) hpw'.2)
    rintro b hb c (⟨_, rfl, _⟩ | ⟨_, h, _⟩)
    · exact Nat.le_of_lt (hpw'.1 b hb)
    · cases h
  | node a k r ihk ihr =>
    intro hA hsub hpw
    have e : (Forest.node a k r).all = a :: (k.all ++ r.all) := by simp only [Forest.all, Forest.firsts, List.map_cons, List.map_append]
    rw [e] at hA
    rw [e, List.pairwise_cons, List.pairwise_append] at hpw
    refine step _ r k a rfl rfl (hA a List.mem_cons_self) (hsub _ _ .node) (by simp only [searchCost]; omega) (fun b => hitW_node) ?_ (ihk (fun b hb => hA b (List.mem_cons_of_mem _ (List.mem_append_left _ hb))) (fun b K h => hsub b K (.under h)) hpw.2.1)
      (ihr (fun b hb => hA b (List.mem_cons_of_mem _ (List.mem_append_right _ hb))) (fun b K h => hsub b K (.afterNode h)) hpw.2.2.1)
    rintro b hb c (⟨_, rfl, _⟩ | ⟨_, h, _⟩)
    · exact Nat.le_of_lt (hpw.1 b (List.mem_append_right _ hb))
    · exact Nat.le_of_lt (hpw.2.2.2 c (reaches_mem h) b hb)

/-- The search below an entry. -/
theorem search_right {t : Nat} {a : Nat × DieEntry} {K : Forest (Nat × DieEntry)} (hA : ∀ b ∈ a :: K.all, A b) (hK : (x.placed uo).KidsOf a K) {depth : Nat} (hd : searchCost K + 1 ≤ depth)
    {y : DIE} {s : IState} (hs : ISt d xs s) (hr : RangesRight d xs s) (hg : GoodDie d xs s y uo x a.1 a.2) (skip : Bool) :
    ∃ r s', findEntry d fuel addr t depth y skip s = .ok (r, s') ∧ KeptR d xs s s' ∧ RangesRight d xs s' ∧ FirstGood d xs s' uo x (HitFromW w t skip a K) r := by
  obtain ⟨u, T, hop⟩ := opened hok hg.entry.1
  have hu : u = y.unit := by have := hop.isOpen; rw [hg.isOpen] at this; injection this with this; exact this.symm
  subst hu
  have hpw := (List.pairwise_cons.1 ((placed_pairwise x uo).2.sublist (tree_kids_sub hK))).2
  exact search_one hok hfit hrefs w hw (hA a List.mem_cons_self) hK (search_loop hok hfit hrefs w hw (t := t) (T := T) K (fun b hb => hA b (List.mem_cons_of_mem _ hb)) (fun b L h => tree_kids_trans hK h) hpw) hd hs hr hg hop skip

end

/-! ### What entries say -/

section
variable {d : Sections} {xs : List DieUnit} (hok : InfoOk d xs) (hfit : SectionsFit d) (hrefs : RefsOk xs)
include hok hfit hrefs

theorem says_in {uo : Nat} {x : DieUnit} {addr : BitVec 64} {a : Nat × DieEntry} (h : SaysIn d xs uo x addr.toNat a) {fuel : Nat} (h1 : 1 ≤ fuel) {y : DIE} {s : IState}
    (hs : ISt d xs s) (hr : RangesRight d xs s) (hg : GoodDie d xs s y uo x a.1 a.2) : ∃ s', containsAddress d fuel y addr s = .ok (.yes, s') := by
  rcases h with ⟨lo, hi, h, hin⟩ | ⟨l, h, hn, r, hr1, hr2, hr3⟩
  · obtain ⟨s', k⟩ := contains_bounds hok hfit hs hg h addr h1
    rw [if_pos hin] at k; exact ⟨s', k⟩
  · obtain ⟨s', k⟩ := contains_list hok hfit hrefs hs hr hg h hn addr h1
    rw [if_pos (List.any_eq_true.2 ⟨r, hr1, decide_eq_true ⟨hr2, by omega⟩⟩)] at k; exact ⟨s', k⟩

theorem says_out {uo : Nat} {x : DieUnit} {addr : BitVec 64} {a : Nat × DieEntry} (h : SaysOut d xs uo x addr.toNat a) (hne : ∀ l, EntryRanges d xs uo x a.1 a.2 l → ∀ r ∈ l, addr.toNat ≠ r.2)
    {fuel : Nat} (h1 : 1 ≤ fuel) {y : DIE} {s : IState} (hs : ISt d xs s) (hr : RangesRight d xs s) (hg : GoodDie d xs s y uo x a.1 a.2) :
    ∃ s', containsAddress d fuel y addr s = .ok (.no, s') := by
  rcases h with ⟨lo, hi, h, hin⟩ | ⟨l, h, hn, hout⟩
  · obtain ⟨s', k⟩ := contains_bounds hok hfit hs hg h addr h1
    rw [if_neg hin] at k; exact ⟨s', k⟩
  · obtain ⟨s', k⟩ := contains_list hok hfit hrefs hs hr hg h hn addr h1
    rw [if_neg] at k
    · exact ⟨s', k⟩
    · intro hany
      obtain ⟨r, m, h2⟩ := List.any_eq_true.1 hany
      have := of_decide_eq_true h2
      have := hne l h r m
      exact hout ⟨r, m, by omega, by omega⟩

open Classical in
/-- What it says, as an answer. -/
noncomputable def sayOf (d : Sections) (xs : List DieUnit) (uo : Nat) (x : DieUnit) (addr : Nat) (a : Nat × DieEntry) : Contains :=
  if SaysIn d xs uo x addr a then .yes else if SaysOut d xs uo x addr a then .no else .unknown

/-- It does not say both. -/
theorem says_one {uo : Nat} {x : DieUnit} {addr : BitVec 64} {a : Nat × DieEntry} {s : IState} (hs : ISt d xs s) (hr : RangesRight d xs s) (he : EntryIn xs uo x a.1 a.2)
    (ht : Told d xs uo x addr.toNat a) (h1 : SaysIn d xs uo x addr.toNat a) (h2 : SaysOut d xs uo x addr.toNat a) : False := by
  obtain ⟨u, t, hop⟩ := opened hok he.1
  obtain ⟨y, s', _, g2, g3, g4, _⟩ := inUnit_entry hok hs he hop.isOpen
  obtain ⟨_, k1⟩ := says_in hok hfit hrefs h1 (Nat.le_refl 1) g2 (hr.of_eq g3.2) g4
  obtain ⟨_, k2⟩ := says_out hok hfit hrefs h2 ht.2 (Nat.le_refl 1) g2 (hr.of_eq g3.2) g4
  rw [k1] at k2; injection k2 with k2; injection k2 with k2 _; cases k2

theorem told_one {uo : Nat} {x : DieUnit} {addr : BitVec 64} {a : Nat × DieEntry} (ht : Told d xs uo x addr.toNat a) : ∃ n, ∀ fuel, n ≤ fuel → ∀ (y : DIE) (s : IState), ISt d xs s →
    RangesRight d xs s → GoodDie d xs s y uo x a.1 a.2 → ∃ s', containsAddress d fuel y addr s = .ok (sayOf d xs uo x addr.toNat a, s') := by
  rcases ht.1 with h | h | h
  · refine ⟨1, fun fuel h1 y s hs hr hg => ?_⟩
    unfold sayOf
    rw [if_pos h]; exact says_in hok hfit hrefs h h1 hs hr hg
  · refine ⟨1, fun fuel h1 y s hs hr hg => ?_⟩
    unfold sayOf
    rw [if_neg (fun h' => says_one hok hfit hrefs hs hr hg.entry ht h' h), if_pos h]
    exact says_out hok hfit hrefs h ht.2 h1 hs hr hg
  · obtain ⟨n, hn⟩ := contains_unknown hok (d := d) h.1 h.2
    refine ⟨n + 1, fun fuel h1 y s hs hr hg => ?_⟩
    obtain ⟨s', k⟩ := hn addr fuel y x s (by omega) hs hg
    unfold sayOf
    rw [if_neg, if_neg]
    · exact ⟨s', k⟩
    · intro h'
      obtain ⟨_, k2⟩ := says_out hok hfit hrefs h' ht.2 (fuel := fuel) (by omega) hs hr hg
      rw [k] at k2; injection k2 with k2; injection k2 with k2 _; cases k2
    · intro h'
      obtain ⟨_, k2⟩ := says_in hok hfit hrefs h' (fuel := fuel) (by omega) hs hr hg
      rw [k] at k2; injection k2 with k2; injection k2 with k2 _; cases k2

theorem told_all {uo : Nat} {x : DieUnit} {addr : BitVec 64} (l : List (Nat × DieEntry)) (ht : ∀ a ∈ l, Told d xs uo x addr.toNat a) : ∃ n, ∀ fuel, n ≤ fuel → ∀ a, a ∈ l → ∀ (y : DIE) (s : IState),
    ISt d xs s → RangesRight d xs s → GoodDie d xs s y uo x a.1 a.2 → ∃ s', containsAddress d fuel y addr s = .ok (sayOf d xs uo x addr.toNat a, s') := by
  induction l with
  | nil => exact ⟨0, fun _ _ a h => nomatch h⟩
  | cons b l ih =>
    obtain ⟨n, hn⟩ := ih (fun a h => ht a (List.mem_cons_of_mem _ h))
    obtain ⟨m, hm⟩ := told_one hok hfit hrefs (ht b List.mem_cons_self)
    refine ⟨n + m, fun fuel h1 a ha => ?_⟩
    rcases List.mem_cons.1 ha with rfl | ha
    · exact hm fuel (by omega)
    · exact hn fuel (by omega) a ha

theorem say_hit {uo : Nat} {x : DieUnit} {addr : BitVec 64} {s : IState} (hs : ISt d xs s) (hr : RangesRight d xs s) {t : Nat} {skip : Bool} {a : Nat × DieEntry} {K : Forest (Nat × DieEntry)}
    (hu : (uo, x) ∈ placeUnits 0 xs) (hK : (x.placed uo).KidsOf a K) (ht : ∀ b ∈ a :: K.all, Told d xs uo x addr.toNat b) (b : Nat × DieEntry) :
    HitFrom d xs uo x addr.toNat t skip a K b ↔ HitFromW (sayOf d xs uo x addr.toNat) t skip a K b := by
  have hyes : ∀ c, sayOf d xs uo x addr.toNat c = .yes ↔ SaysIn d xs uo x addr.toNat c := by
    intro c
    unfold sayOf
    by_cases h : SaysIn d xs uo x addr.toNat c
    · rw [if_pos h]; simp [h]
    · rw [if_neg h]
      split <;> simp [h]
  have hno : ∀ c ∈ a :: K.all, (sayOf d xs uo x addr.toNat c ≠ .no ↔ ¬SaysOut d xs uo x addr.toNat c) := by
    intro c hc
    have he : EntryIn xs uo x c.1 c.2 := ⟨hu, (tree_kids_sub hK).subset hc⟩
    unfold sayOf
    by_cases h : SaysIn d xs uo x addr.toNat c
    · rw [if_pos h]
      exact ⟨fun _ h' => says_one hok hfit hrefs hs hr he (ht c hc) h h', fun _ => nofun⟩
    · rw [if_neg h]
      by_cases h' : SaysOut d xs uo x addr.toNat c
      · rw [if_pos h']; simp [h']
      · rw [if_neg h']; simp [h']
  have hhit : Hit d xs uo x addr.toNat t K b ↔ HitW (sayOf d xs uo x addr.toNat) t K b := by
    unfold Hit HitW
    rw [hyes]
    constructor
    · rintro ⟨h, h'⟩
      exact ⟨reaches_congr h (fun c hc hp => (hno c (List.mem_cons_of_mem _ hc)).2 hp), h'⟩
    · rintro ⟨h, h'⟩
      exact ⟨reaches_congr h (fun c hc hp => (hno c (List.mem_cons_of_mem _ hc)).1 hp), h'⟩
  unfold HitFrom HitFromW
  rw [hyes, hhit, hno a List.mem_cons_self]

/-- The search, when entries say what addresses they have. -/
theorem search_told {uo : Nat} {x : DieUnit} {addr : BitVec 64} {a : Nat × DieEntry} {K : Forest (Nat × DieEntry)} (hu : (uo, x) ∈ placeUnits 0 xs) (hK : (x.placed uo).KidsOf a K)
    (ht : ∀ b ∈ a :: K.all, Told d xs uo x addr.toNat b) : ∃ n, ∀ (fuel depth t : Nat) (skip : Bool) (y : DIE) (s : IState), n ≤ fuel → n ≤ depth → ISt d xs s → RangesRight d xs s →
    GoodDie d xs s y uo x a.1 a.2 → ∃ r s', findEntry d fuel addr t depth y skip s = .ok (r, s') ∧ KeptR d xs s s' ∧ RangesRight d xs s' ∧
      FirstGood d xs s' uo x (HitFrom d xs uo x addr.toNat t skip a K) r := by
  obtain ⟨n, hn⟩ := told_all hok hfit hrefs (a :: K.all) ht
  refine ⟨n + searchCost K + 1, fun fuel depth t skip y s h1 h2 hs hr hg => ?_⟩
  obtain ⟨r, s', c1, c2, c3, c4⟩ := search_right hok hfit hrefs (sayOf d xs uo x addr.toNat) (A := fun b => b ∈ a :: K.all) (hn fuel (by omega)) (t := t) (fun b hb => hb) hK
    (depth := depth) (by omega) hs hr hg skip
  exact ⟨r, s', c1, c2, c3, c4.congr (say_hit hok hfit hrefs hs hr hu hK ht)⟩

omit hok hfit hrefs in
theorem FirstGood.first {s : IState} {uo : Nat} {x : DieUnit} {H : Nat × DieEntry → Prop} {r : Option DIE} (h : FirstGood d xs s uo x H r) : FirstOf d xs uo x H r := by
  rcases h with h | ⟨z, a, h1, h2, h3⟩
  · exact .inl h
  · exact .inr ⟨z, a, h1, h2.isEntry, h3⟩

end

end Pstack.Props
