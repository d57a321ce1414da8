import Verif.Proof.FindEntry
/-
Inlined functions.
-/
namespace Pstack.Props
open Pstack.Reader Pstack.Spec Pstack.Dwarf Pstack.Die

/-- From an entry that is reached, what is below it is reached. -/
theorem reaches_under {α : Type} {P : α → Prop} {f : Forest α} {b : α} (h : f.Reaches P b) : ∃ L, f.KidsOf b L ∧ ∀ c, P b → L.Reaches P c → f.Reaches P c := by
  induction h with
  | leaf => exact ⟨.done, .leaf, fun c _ h => nomatch h⟩
  | node => exact ⟨_, .node, fun c hp h => .under hp h⟩
  | under hp _ ih => obtain ⟨L, h1, h2⟩ := ih; exact ⟨L, .under h1, fun c hb h => .under hp (h2 c hb h)⟩
  | afterLeaf _ ih => obtain ⟨L, h1, h2⟩ := ih; exact ⟨L, .afterLeaf h1, fun c hb h => .afterLeaf (h2 c hb h)⟩
  | afterNode _ ih => obtain ⟨L, h1, h2⟩ := ih; exact ⟨L, .afterNode h1, fun c hb h => .afterNode (h2 c hb h)⟩

theorem all_node {α : Type} (a : α) (k r : Forest α) : (Forest.node a k r).all = a :: (k.all ++ r.all) := by
  simp only [Forest.all, Forest.firsts, List.map_cons, List.map_append]

/-- An entry that is reached, and below `b`, is reached from there. -/
theorem reaches_from {α : Type} {P : Nat × α → Prop} {f : Forest (Nat × α)} {b c : Nat × α} {L : Forest (Nat × α)} (hL : f.KidsOf b L) (h : f.Reaches P c) (hc : c ∈ L.all)
    (hpw : f.all.Pairwise (fun a b => a.1 < b.1)) : L.Reaches P c := by
  induction hL with
  | leaf => cases hc
  | node =>
    rw [all_node, List.pairwise_cons, List.pairwise_append] at hpw
    cases h with
    | node => have := hpw.1 _ (List.mem_append_left _ hc); omega
    | under _ h => exact h
    | afterNode h => have := hpw.2.2.2 _ hc _ (reaches_mem h); omega
  | under hk ih =>
    have hc' : c ∈ _ := (kids_sub hk).subset (List.mem_cons_of_mem _ hc)
    rw [all_node, List.pairwise_cons, List.pairwise_append] at hpw
    cases h with
    | node => have := hpw.1 _ (List.mem_append_left _ hc'); omega
    | under _ h => exact ih h hc hpw.2.1
    | afterNode h => have := hpw.2.2.2 _ hc' _ (reaches_mem h); omega
  | @afterLeaf a b r _ hk ih =>
    have hc' : c ∈ _ := (kids_sub hk).subset (List.mem_cons_of_mem _ hc)
    have hpw' := List.pairwise_cons.1 (show (b :: r.all).Pairwise _ from hpw)
    cases h with
    | leaf => have := hpw'.1 _ hc'; omega
    | afterLeaf h => exact ih h hc hpw'.2
  | afterNode hk ih =>
    have hc' : c ∈ _ := (kids_sub hk).subset (List.mem_cons_of_mem _ hc)
    rw [all_node, List.pairwise_cons, List.pairwise_append] at hpw
    cases h with
    | node => have := hpw.1 _ (List.mem_append_right _ hc'); omega
    | under _ h => have := hpw.2.2.2 _ (reaches_mem h) _ hc'; omega
    | afterNode h => exact ih h hc hpw.2.2.1

/-- The children of an entry are determined by its place. -/
theorem kids_inj {α : Type} {f : Forest (Nat × α)} {b : Nat × α} {L M : Forest (Nat × α)} (hL : f.KidsOf b L) (hM : f.KidsOf b M) (hpw : f.all.Pairwise (fun a b => a.1 < b.1)) : L = M := by
  induction hL with
  | @leaf a r =>
    cases hM with
    | leaf => rfl
    | afterLeaf h => have := (List.pairwise_cons.1 (show (a :: r.all).Pairwise _ from hpw)).1 _ (kids_mem h); omega
  | node =>
    rw [all_node, List.pairwise_cons, List.pairwise_append] at hpw
    cases hM with
    | node => rfl
    | under h => have := hpw.1 _ (List.mem_append_left _ (kids_mem h)); omega
    | afterNode h => have := hpw.1 _ (List.mem_append_right _ (kids_mem h)); omega
  | under hk ih =>
    rw [all_node, List.pairwise_cons, List.pairwise_append] at hpw
    cases hM with
    | node => have := hpw.1 _ (List.mem_append_left _ (kids_mem hk)); omega
    | under h => exact ih h hpw.2.1
    | afterNode h => have := hpw.2.2.2 _ (kids_mem hk) _ (kids_mem h); omega
  | @afterLeaf a b r _ hk ih =>
    have hpw' := List.pairwise_cons.1 (show (b :: r.all).Pairwise _ from hpw)
    cases hM with
    | leaf => have := hpw'.1 _ (kids_mem hk); omega
    | afterLeaf h => exact ih h hpw'.2
  | afterNode hk ih =>
    rw [all_node, List.pairwise_cons, List.pairwise_append] at hpw
    cases hM with
    | node => have := hpw.1 _ (List.mem_append_right _ (kids_mem hk)); omega
    | under h => have := hpw.2.2.2 _ (kids_mem h) _ (kids_mem hk); omega
    | afterNode h => exact ih h hpw.2.2.1

theorem cost_kids {α : Type} {f : Forest α} {a : α} {k : Forest α} (h : f.KidsOf a k) : searchCost k ≤ searchCost f := by
  induction h with
  | leaf => simp only [searchCost]; omega
  | node => simp only [searchCost]; omega
  | under _ ih => simp only [searchCost]; omega
  | afterLeaf _ ih => simp only [searchCost]; omega
  | afterNode _ ih => simp only [searchCost]; omega

section
variable {d : Sections} {xs : List DieUnit} (hok : InfoOk d xs) (hfit : SectionsFit d) (hrefs : RefsOk xs)
include hok hfit hrefs

/-- The `DIE`s are these entries, and of use. -/
def GoodDies (d : Sections) (xs : List DieUnit) (s : IState) (uo : Nat) (x : DieUnit) : List DIE → List (Nat × DieEntry) → Prop
  | [], [] => True
  | z :: zs, a :: as => GoodDie d xs s z uo x a.1 a.2 ∧ GoodDies d xs s uo x zs as
  | _, _ => False

omit hok hfit hrefs in
theorem GoodDies.entries {s : IState} {uo : Nat} {x : DieUnit} : ∀ {zs : List DIE} {as : List (Nat × DieEntry)}, GoodDies d xs s uo x zs as → AreEntries d xs uo x zs as
  | [], [], _ => trivial
  | _ :: _, _ :: _, h => ⟨h.1.isEntry, GoodDies.entries h.2⟩
  | [], _ :: _, h => h.elim
  | _ :: _, [], h => h.elim

omit hok hfit hrefs in
theorem GoodDies.extR {s s' : IState} {uo : Nat} {x : DieUnit} (he : ∀ uo, Ext (s.st uo) (s'.st uo)) :
    ∀ {zs : List DIE} {as : List (Nat × DieEntry)}, GoodDies d xs s uo x zs as → GoodDies d xs s' uo x zs as
  | [], [], _ => trivial
  | _ :: _, _ :: _, h => ⟨h.1.extR he, GoodDies.extR he h.2⟩
  | [], _ :: _, h => h.elim
  | _ :: _, [], h => h.elim

/-- The loop for inlined functions finds the chain. -/
theorem inlined_good {uo : Nat} {x : DieUnit} {addr : BitVec 64} {fuel depth : Nat} (hu : (uo, x) ∈ placeUnits 0 xs) : ∀ (n : Nat) (a : Nat × DieEntry) (K : Forest (Nat × DieEntry)),
    K.all.length < n → (x.placed uo).KidsOf a K → (∀ b ∈ a :: K.all, Told d xs uo x addr.toNat b) →
    (∀ b, b ∈ a :: K.all → ∀ (y : DIE) (s : IState), ISt d xs s → RangesRight d xs s → GoodDie d xs s y uo x b.1 b.2 → ∃ s', containsAddress d fuel y addr s = .ok (sayOf d xs uo x addr.toNat b, s')) →
    searchCost K + 1 ≤ depth → ∀ (y : DIE) (s : IState), ISt d xs s → RangesRight d xs s → GoodDie d xs s y uo x a.1 a.2 →
    ∃ zs l s', inlinedAt d fuel depth addr n y s = .ok (zs, s') ∧ GoodDies d xs s' uo x zs l ∧ InlineChain d xs uo x addr.toNat a K l ∧ KeptR d xs s s' ∧ RangesRight d xs s' := by
  intro n
  induction n with
  | zero => intro a K h; omega
  | succ n ih =>
    intro a K hlen hK ht hw hd y s hs hr hg
    obtain ⟨r, s1, c1, c2, c3, c4⟩ := search_right hok hfit hrefs (sayOf d xs uo x addr.toNat) (A := fun b => b ∈ a :: K.all) hw (t := 0x1d) (fun b hb => hb) hK hd hs hr hg true
    have c5 := c4.congr (say_hit hok hfit hrefs hs hr hu hK ht)
    have hpw := (List.pairwise_cons.1 ((placed_pairwise x uo).2.sublist (tree_kids_sub hK))).2
    rcases c5 with ⟨e1, e2⟩ | ⟨z, b, e1, e2, e3, e4⟩
    · subst e1
      refine ⟨[], [], s1, ?_, trivial, .stop e2, c2, c3⟩
      rw [inlinedAt, c1, Res.bind_ok]
    · subst e1
      have hb : Hit d xs uo x addr.toNat 0x1d K b := by
        rcases e3 with ⟨h, _⟩ | ⟨_, h⟩
        · cases h
        · exact h
      obtain ⟨L, hL, _⟩ := reaches_under hb.1
      have hsub := kids_sub hL
      have hlen' : L.all.length < n := by
        have := hsub.length_le
        rw [List.length_cons] at this; omega
      have hin : ∀ c ∈ b :: L.all, c ∈ a :: K.all := fun c hc => List.mem_cons_of_mem _ (hsub.subset hc)
      obtain ⟨zs, l, s', g1, g2, g3, g4, g5⟩ := ih b L hlen' (tree_kids_trans hK hL) (fun c hc => ht c (hin c hc)) (fun c hc => hw c (hin c hc)) (by have := cost_kids hL; omega) z s1 c2.1 c3 e2
      refine ⟨z :: zs, b :: l, s', ?_, ⟨e2.extR g4.2, g2⟩, .more e3 e4 hL g3, c2.trans g4, g5⟩
      rw [inlinedAt, c1, Res.bind_ok]
      simp only
      rw [g1, Res.bind_ok]

theorem inlined_told {uo : Nat} {x : DieUnit} {addr : BitVec 64} {fuel depth : Nat} (hu : (uo, x) ∈ placeUnits 0 xs) : ∀ (n : Nat) (a : Nat × DieEntry) (K : Forest (Nat × DieEntry)),
    K.all.length < n → (x.placed uo).KidsOf a K → (∀ b ∈ a :: K.all, Told d xs uo x addr.toNat b) →
    (∀ b, b ∈ a :: K.all → ∀ (y : DIE) (s : IState), ISt d xs s → RangesRight d xs s → GoodDie d xs s y uo x b.1 b.2 → ∃ s', containsAddress d fuel y addr s = .ok (sayOf d xs uo x addr.toNat b, s')) →
    searchCost K + 1 ≤ depth → ∀ (y : DIE) (s : IState), ISt d xs s → RangesRight d xs s → GoodDie d xs s y uo x a.1 a.2 →
    ∃ zs l s', inlinedAt d fuel depth addr n y s = .ok (zs, s') ∧ AreEntries d xs uo x zs l ∧ InlineChain d xs uo x addr.toNat a K l := by
  intro n a K h1 h2 h3 h4 h5 y s h6 h7 h8
  obtain ⟨zs, l, s', g1, g2, g3, _⟩ := inlined_good hok hfit hrefs hu n a K h1 h2 h3 h4 h5 y s h6 h7 h8
  exact ⟨zs, l, s', g1, g2.entries, g3⟩

omit hok hfit hrefs in
/-- There is only one chain. -/
theorem chain_one {uo : Nat} {x : DieUnit} {addr : Nat} {a : Nat × DieEntry} {K : Forest (Nat × DieEntry)} {l : List (Nat × DieEntry)} (h : InlineChain d xs uo x addr a K l) :
    (x.placed uo).KidsOf a K → ∀ {l'}, InlineChain d xs uo x addr a K l' → l = l' := by
  induction h with
  | stop hn =>
    intro _ l' h'
    cases h' with
    | stop _ => rfl
    | more h1 _ _ _ => exact absurd h1 (hn _)
  | @more a K b L l h1 h2 hL _ ih =>
    intro hK l' h'
    have hpw := (List.pairwise_cons.1 ((placed_pairwise x uo).2.sublist (tree_kids_sub hK))).2
    have mem : ∀ c, HitFrom d xs uo x addr 0x1d true a K c → c ∈ K.all := by
      intro c hc
      rcases hc with ⟨h, _⟩ | ⟨_, h⟩
      · cases h
      · exact reaches_mem h.1
    cases h' with
    | stop hn => exact absurd h1 (hn _)
    | @more _ _ b' L' l' h1' h2' hL' h3' =>
      have e : b.1 = b'.1 := Nat.le_antisymm (h2 _ h1') (h2' _ h1)
      have : b = b' := by
        obtain ⟨o, e1⟩ := b
        obtain ⟨o', e2⟩ := b'
        have e : o = o' := e
        subst e
        have := pairwise_key hpw (mem _ h1) (mem _ h1')
        rw [this]
      subst this
      have : L = L' := kids_inj hL hL' hpw
      subst this
      rw [ih (tree_kids_trans hK hL) h3']

/-- When the inlined functions are nested, the chain has all of them. -/
theorem chain_all {uo : Nat} {x : DieUnit} {addr : BitVec 64} {s : IState} (hs : ISt d xs s) (hr : RangesRight d xs s) (hu : (uo, x) ∈ placeUnits 0 xs) {a : Nat × DieEntry}
    {K : Forest (Nat × DieEntry)} {l : List (Nat × DieEntry)} (h : InlineChain d xs uo x addr.toNat a K l) : (x.placed uo).KidsOf a K → (∀ b ∈ a :: K.all, Told d xs uo x addr.toNat b) →
    Nested d xs uo x addr.toNat K → (∀ b, b ∈ l ↔ HitFrom d xs uo x addr.toNat 0x1d true a K b) ∧ l.Pairwise (fun a b => a.1 < b.1) := by
  induction h with
  | stop hn => intro _ _ _; exact ⟨fun b => ⟨(fun h => nomatch h), fun h => absurd h (hn b)⟩, List.Pairwise.nil⟩
  | @more a K b L l h1 h2 hL h3 ih =>
    intro hK ht hnest
    have hpw := (List.pairwise_cons.1 ((placed_pairwise x uo).2.sublist (tree_kids_sub hK))).2
    have hsub := kids_sub hL
    have hin : ∀ c ∈ b :: L.all, c ∈ a :: K.all := fun c hc => List.mem_cons_of_mem _ (hsub.subset hc)
    have hpwL := List.pairwise_cons.1 (hpw.sublist hsub)
    have hb : ¬SaysOut d xs uo x addr.toNat a ∧ Hit d xs uo x addr.toNat 0x1d K b := by
      rcases h1 with ⟨h, _⟩ | h
      · cases h
      · exact h
    have hbo : ¬SaysOut d xs uo x addr.toNat b := fun h =>
      says_one hok hfit hrefs hs hr ⟨hu, (tree_kids_sub hK).subset (hin b List.mem_cons_self)⟩ (ht b (hin b List.mem_cons_self)) hb.2.2.2 h
    obtain ⟨L', hL', hdown⟩ := reaches_under hb.2.1
    have : L' = L := kids_inj hL' hL hpw
    subst this
    -- what is below `b`
    have down : ∀ c, Hit d xs uo x addr.toNat 0x1d L' c → Hit d xs uo x addr.toNat 0x1d K c := fun c hc => ⟨hdown c hbo hc.1, hc.2⟩
    have up : ∀ c, Hit d xs uo x addr.toNat 0x1d K c → b.1 < c.1 → Hit d xs uo x addr.toNat 0x1d L' c := by
      intro c hc hlt
      obtain ⟨M, hM, hcM⟩ := hnest b c hb.2 hc hlt
      have : M = L' := kids_inj hM hL hpw
      subst this
      exact ⟨reaches_from hL hc.1 hcM hpw, hc.2⟩
    have hnest' : Nested d xs uo x addr.toNat L' := by
      intro c e hc he hlt
      obtain ⟨M, hM, heM⟩ := hnest c e (down c hc) (down e he) hlt
      obtain ⟨M', hM'⟩ := kids_ex (reaches_mem hc.1)
      have : M = M' := kids_inj hM (kids_trans hL hM') hpw
      subst this
      exact ⟨M, hM', heM⟩
    obtain ⟨i1, i2⟩ := ih (tree_kids_trans hK hL) (fun c hc => ht c (hin c hc)) hnest'
    have i1' : ∀ c, c ∈ l ↔ Hit d xs uo x addr.toNat 0x1d L' c := by
      intro c
      rw [i1]
      constructor
      · rintro (⟨h, _⟩ | ⟨_, h⟩)
        · cases h
        · exact h
      · intro h; exact .inr ⟨hbo, h⟩
    constructor
    · intro c
      rw [List.mem_cons, i1']
      constructor
      · rintro (rfl | h)
        · exact h1
        · exact .inr ⟨hb.1, down c h⟩
      · intro h
        have hle := h2 c h
        rcases h with ⟨h, _⟩ | ⟨_, h⟩
        · cases h
        rcases Nat.lt_or_ge b.1 c.1 with hlt | hge
        · exact .inr (up c h hlt)
        · left
          have e : c.1 = b.1 := by omega
          have m1 := (tree_kids_sub hK).subset (List.mem_cons_of_mem _ (reaches_mem h.1))
          have m2 := (tree_kids_sub hK).subset (List.mem_cons_of_mem _ (reaches_mem hb.2.1))
          obtain ⟨c1, c2⟩ := c
          obtain ⟨b1, b2⟩ := b
          simp only at e
          subst e
          rw [placed_inj m1 m2]
    · rw [List.pairwise_cons]
      refine ⟨?_, i2⟩
      intro c hc
      exact hpwL.1 c (reaches_mem ((i1' c).1 hc).1)

end

end Pstack.Props
