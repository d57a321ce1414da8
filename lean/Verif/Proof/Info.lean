import Verif.Proof.DieTree
import Verif.Spec.Info
/-
The units of a section together: where they are, finding an entry in any of them, and the attributes of an entry.
-/
namespace Pstack.Props
open Pstack.Reader Pstack.Spec Pstack.Dwarf Pstack.Die

/-! ### Names of attributes -/

theorem attrsShow_names {d : List Byte} {sz : Sizes} : ∀ {as : List AttrDecl} {i : Nat} {vs : List AttrVal} {ns : List (Nat × Nat)} {fs : List FormEntry} {ws : List Value},
    AttrsShow d sz i as vs ns fs ws → ns = namesFrom i as ∧ fs.length = as.length := by
  intro as
  induction as with
  | nil =>
    intro i vs ns fs ws h
    cases vs <;> cases ns <;> cases fs <;> cases ws <;> first | exact ⟨rfl, rfl⟩ | exact h.elim
  | cons a as ih =>
    intro i vs ns fs ws h
    cases vs <;> cases ns <;> cases fs <;> cases ws <;> first | exact h.elim | skip
    obtain ⟨h1, _, _, h4⟩ := h
    obtain ⟨g1, g2⟩ := ih h4
    exact ⟨by rw [h1, g1]; rfl, by simp [g2]⟩

theorem mem_namesFrom {as : List AttrDecl} : ∀ {i : Nat} {p : Nat × Nat}, p ∈ namesFrom i as → ∃ j a, p = (a.name, i + j) ∧ as[j]? = some a := by
  induction as with
  | nil => intro i p h; cases h
  | cons a as ih =>
    intro i p h
    rcases List.mem_cons.1 h with h | h
    · exact ⟨0, a, by simpa using h, rfl⟩
    · obtain ⟨j, b, h1, h2⟩ := ih h
      exact ⟨j + 1, b, by rw [h1]; simp; omega, by simpa using h2⟩

theorem namesFrom_mem {as : List AttrDecl} : ∀ {i j : Nat} {a : AttrDecl}, as[j]? = some a → (a.name, i + j) ∈ namesFrom i as := by
  induction as with
  | nil => intro i j a h; simp at h
  | cons b as ih =>
    intro i j a h
    cases j with
    | zero =>
      simp at h; subst h; exact List.mem_cons_self
    | succ j =>
      simp at h
      have := ih (i := i + 1) h
      rw [show i + (j + 1) = i + 1 + j by omega]
      exact List.mem_cons_of_mem _ this

/-- The search in the sorted table finds the first attribute of the name. -/
theorem findName_spec (as : List AttrDecl) (name : Nat) : findName (namesFrom 0 as) name = as.findIdx? (fun a => a.name = name) := by
  have htrans : ∀ a b c : Nat × Nat, pairLe a b = true → pairLe b c = true → pairLe a c = true := by
    intro a b c h1 h2
    simp only [pairLe, Bool.or_eq_true, Bool.and_eq_true, decide_eq_true_eq, beq_iff_eq] at *
    omega
  have htotal : ∀ a b : Nat × Nat, (pairLe a b || pairLe b a) = true := by
    intro a b
    simp only [pairLe, Bool.or_eq_true, Bool.and_eq_true, decide_eq_true_eq, beq_iff_eq]
    omega
  have hs := List.pairwise_mergeSort htrans htotal (namesFrom 0 as)
  have hp := List.mergeSort_perm (namesFrom 0 as) pairLe
  unfold findName
  simp only
  generalize (namesFrom 0 as).mergeSort pairLe = l at hs hp
  have hpart : Search.Partitioned (fun e : Nat × Nat => decide (e.1 < name)) l := by
    intro i j x y hij hx hy hpy
    have h1 := List.pairwise_iff_getElem.1 hs i j
    obtain ⟨hi, rfl⟩ := List.getElem?_eq_some_iff.1 hx
    obtain ⟨hj, rfl⟩ := List.getElem?_eq_some_iff.1 hy
    have := h1 hi hj hij
    simp only [pairLe, Bool.or_eq_true, Bool.and_eq_true, decide_eq_true_eq, beq_iff_eq] at this hpy ⊢
    omega
  obtain ⟨k1, k2, k3⟩ := Search.lowerBound_spec _ l hpart
  generalize hk : Search.lowerBound (fun e : Nat × Nat => decide (e.1 < name)) l = k at k1 k2 k3
  cases hf : as.findIdx? (fun a => decide (a.name = name)) with
  | none =>
    cases he : l[k]? with
    | none => rfl
    | some e =>
      have hm := (hp.mem_iff).1 (List.mem_of_getElem? he)
      obtain ⟨j, a, h1, h2⟩ := mem_namesFrom hm
      have := List.findIdx?_eq_none_iff.1 hf a (List.mem_of_getElem? h2)
      simp only [decide_eq_false_iff_not] at this
      simp only
      rw [if_neg (by rw [h1]; exact this)]
  | some i =>
    obtain ⟨hi, h1, h2⟩ := List.findIdx?_eq_some_iff_getElem.1 hf
    have hn : as[i].name = name := by simpa using h1
    have hm : (name, i) ∈ l := by
      rw [hp.mem_iff]
      have := namesFrom_mem (i := 0) (List.getElem?_eq_getElem hi)
      rw [hn] at this
      simpa using this
    obtain ⟨j, hj, hje⟩ := List.mem_iff_getElem.1 hm
    have hkj : k ≤ j := by
      rcases Nat.lt_or_ge j k with h | h
      · have := k2 j _ h (List.getElem?_eq_getElem hj)
        rw [hje] at this; simp at this
      · exact h
    have hkl : k < l.length := by omega
    have e1 : l[k]? = some l[k] := List.getElem?_eq_getElem hkl
    have hge := k3 k _ (Nat.le_refl _) e1
    simp only [decide_eq_false_iff_not] at hge
    have hle : l[k].1 ≤ name ∧ (l[k].1 = name → l[k].2 ≤ i) := by
      rcases Nat.eq_or_lt_of_le hkj with h | h
      · subst h; rw [hje]; exact ⟨Nat.le_refl _, fun _ => Nat.le_refl _⟩
      · have := List.pairwise_iff_getElem.1 hs k j hkl hj h
        rw [hje] at this
        simp only [pairLe, Bool.or_eq_true, Bool.and_eq_true, decide_eq_true_eq, beq_iff_eq] at this
        omega
    have heq : l[k].1 = name := by omega
    rw [e1]
    simp only
    rw [if_pos heq]
    congr 1
    obtain ⟨j', a', g1, g2⟩ := mem_namesFrom ((hp.mem_iff).1 (List.getElem_mem hkl))
    have hj' : l[k].2 = j' := by rw [g1]; simp
    have ha' : a'.name = name := by rw [← heq, g1]
    rcases Nat.lt_or_ge j' i with h | h
    · have := h2 j' h
      obtain ⟨_, e⟩ := List.getElem?_eq_some_iff.1 g2
      rw [e] at this
      simp [ha'] at this
    · have := hle.2 heq
      omega

/-! ### Places -/

theorem place_pairwise {sz : Sizes} (f : Forest DieEntry) : ∀ pos, (∀ a ∈ forestAll (f.place sz pos), pos ≤ a.1 ∧ a.1 < pos + (f.encode sz).length) ∧
    (forestAll (f.place sz pos)).Pairwise (fun a b => a.1 < b.1) := by
  induction f with
  | done => intro pos; exact ⟨(fun _ h => nomatch h), List.Pairwise.nil⟩
  | leaf e r ih =>
    intro pos
    obtain ⟨h1, h2⟩ := ih (pos + (e.encode sz).length)
    have he := entry_ne sz e
    have hr := forest_ne sz r
    constructor
    · intro a ha
      simp only [Forest.place, forestAll, Forest.firsts, List.map_cons, List.mem_cons, Forest.encode, List.length_append] at ha ⊢
      rcases ha with rfl | ha
      · simp only; omega
      · have := h1 a ha; omega
    · simp only [Forest.place, forestAll, Forest.firsts, List.map_cons, List.pairwise_cons]
      refine ⟨?_, h2⟩
      intro a ha
      have := h1 a ha
      omega
  | node e k r ih1 ih2 =>
    intro pos
    obtain ⟨h1, h2⟩ := ih1 (pos + (e.encode sz).length)
    obtain ⟨h3, h4⟩ := ih2 (pos + (e.encode sz).length + (k.encode sz).length)
    have he := entry_ne sz e
    have hr := forest_ne sz r
    have hk := forest_ne sz k
    constructor
    · intro a ha
      simp only [Forest.place, forestAll, Forest.firsts, List.map_cons, List.map_append, List.mem_cons, List.mem_append, Forest.encode, List.length_append] at ha ⊢
      rcases ha with rfl | ha | ha
      · simp only; omega
      · have := h1 a ha; omega
      · have := h3 a ha; omega
    · simp only [Forest.place, forestAll, Forest.firsts, List.map_cons, List.map_append, List.pairwise_cons, List.pairwise_append, List.mem_append]
      refine ⟨?_, h2, h4, ?_⟩
      · intro a ha
        rcases ha with ha | ha
        · have := h1 a ha; omega
        · have := h3 a ha; omega
      · intro a ha b hb
        have := h1 a ha
        have := h3 b hb
        omega

/-- The places of the entries of a unit are in the unit, and different. -/
theorem placed_pairwise (x : DieUnit) (uo : Nat) : (∀ a ∈ (x.placed uo).all, uo + x.rootPos ≤ a.1 ∧ a.1 < uo + x.encode.length) ∧
    (x.placed uo).all.Pairwise (fun a b => a.1 < b.1) := by
  have hl : x.encode.length = x.rootPos + (x.tree.encode x.sizes).length + x.pad.length := by
    simp [DieUnit.encode, DieUnit.body, DieUnit.rootPos]; omega
  have he := entry_ne x.sizes x.tree.root
  unfold DieUnit.placed DieTree.place
  cases hk : x.tree.kids with
  | none =>
    have hc : (x.tree.encode x.sizes).length = (x.tree.root.encode x.sizes).length := by simp [DieTree.encode, hk]
    constructor
    · intro a ha
      simp only [DieTree.all, DieTree.firsts, Option.map_none, List.map_cons, List.map_nil, List.mem_singleton] at ha
      subst ha; simp only; omega
    · simp [DieTree.all, DieTree.firsts]
  | some f =>
    have hc : (x.tree.encode x.sizes).length = (x.tree.root.encode x.sizes).length + (f.encode x.sizes).length := by simp [DieTree.encode, hk]
    obtain ⟨h1, h2⟩ := place_pairwise (sz := x.sizes) f (uo + x.rootPos + (x.tree.root.encode x.sizes).length)
    have key : (DieTree.mk (uo + x.rootPos, x.tree.root) (some (f.place x.sizes (uo + x.rootPos + (x.tree.root.encode x.sizes).length)))).all =
      (uo + x.rootPos, x.tree.root) :: forestAll (f.place x.sizes (uo + x.rootPos + (x.tree.root.encode x.sizes).length)) := by
      simp [DieTree.all, DieTree.firsts, forestAll]
    simp only [Option.map_some]
    rw [key]
    constructor
    · intro a ha
      rcases List.mem_cons.1 ha with rfl | ha
      · simp only; omega
      · have := h1 a ha; omega
    · rw [List.pairwise_cons]
      refine ⟨?_, h2⟩
      intro a ha
      have := h1 a ha; simp only; omega

theorem pairwise_key {α : Type} {l : List (Nat × α)} (h : l.Pairwise (fun a b => a.1 < b.1)) {o : Nat} {a b : α} (ha : (o, a) ∈ l) (hb : (o, b) ∈ l) : a = b := by
  induction l with
  | nil => cases ha
  | cons c l ih =>
    rw [List.pairwise_cons] at h
    rcases List.mem_cons.1 ha with e1 | h1 <;> rcases List.mem_cons.1 hb with e2 | h2
    · rw [← e1] at e2; injection e2 with _ e; exact e.symm
    · have := h.1 _ h2; rw [← e1] at this; simp at this
    · have := h.1 _ h1; rw [← e2] at this; simp at this
    · exact ih h.2 h1 h2

/-- An entry is determined by its place. -/
theorem placed_inj {x : DieUnit} {uo o : Nat} {e e' : DieEntry} (h : (o, e) ∈ (x.placed uo).all) (h' : (o, e') ∈ (x.placed uo).all) : e = e' :=
  pairwise_key (placed_pairwise x uo).2 h h'

theorem mem_offsets {x : DieUnit} {uo o : Nat} {e : DieEntry} (h : (o, e) ∈ (x.placed uo).all) : o ∈ (x.offsets uo).all := by
  have aux : ∀ f : Forest (Nat × DieEntry), forestAll (f.map (·.1)) = (forestAll f).map (·.1) := by
    intro f
    induction f with
    | done => rfl
    | leaf a r ih => simp only [forestAll, Forest.map, Forest.firsts, List.map_cons] at ih ⊢; rw [ih]
    | node a k r ih1 ih2 => simp only [forestAll, Forest.map, Forest.firsts, List.map_cons, List.map_append] at ih1 ih2 ⊢; rw [ih1, ih2]
  have : (x.offsets uo).all = (x.placed uo).all.map (·.1) := by
    unfold DieUnit.offsets
    generalize x.placed uo = t
    obtain ⟨r, k⟩ := t
    cases k with
    | none => rfl
    | some f =>
      have := aux f
      simp only [forestAll] at this
      simp only [DieTree.map, DieTree.all, DieTree.firsts, Option.map_some, List.map_cons]
      rw [this]
  rw [this]
  exact List.mem_map.2 ⟨_, h, rfl⟩

theorem placeUnits_append (a b : List DieUnit) : ∀ off, placeUnits off (a ++ b) = placeUnits off a ++ placeUnits (off + (encodeUnits a).length) b := by
  induction a with
  | nil => intro off; rfl
  | cons x a ih =>
    intro off
    rw [List.cons_append, placeUnits, ih, placeUnits, List.cons_append]
    simp [encodeUnits, Nat.add_assoc]

theorem placeUnits_split {xs : List DieUnit} : ∀ {off uo : Nat} {x : DieUnit}, (uo, x) ∈ placeUnits off xs →
    ∃ a b, xs = a ++ x :: b ∧ uo = off + (encodeUnits a).length := by
  induction xs with
  | nil => intro off uo x h; cases h
  | cons y xs ih =>
    intro off uo x h
    rcases List.mem_cons.1 h with h | h
    · injection h with h1 h2
      exact ⟨[], xs, by rw [h2]; rfl, h1⟩
    · obtain ⟨a, b, h1, h2⟩ := ih h
      refine ⟨y :: a, b, by rw [h1]; rfl, ?_⟩
      rw [h2]; simp [encodeUnits]; omega

/-- Units follow each other. -/
theorem placeUnits_pairwise (xs : List DieUnit) : ∀ off, (∀ p ∈ placeUnits off xs, off ≤ p.1) ∧
    (placeUnits off xs).Pairwise (fun a b => a.1 + a.2.encode.length ≤ b.1) := by
  induction xs with
  | nil => intro off; exact ⟨(fun _ h => nomatch h), List.Pairwise.nil⟩
  | cons x xs ih =>
    intro off
    obtain ⟨h1, h2⟩ := ih (off + x.encode.length)
    constructor
    · intro p hp
      rcases List.mem_cons.1 hp with rfl | hp
      · exact Nat.le_refl _
      · have := h1 p hp; omega
    · rw [placeUnits, List.pairwise_cons]
      exact ⟨fun a ha => h1 a ha, h2⟩

theorem unit_ne (x : DieUnit) : 0 < x.encode.length := by
  have := entry_ne x.sizes x.tree.root
  simp [DieUnit.encode, DieUnit.body, DieTree.encode]; omega

/-- Two units overlap only if they are the same. -/
theorem units_inj {xs : List DieUnit} {a b : Nat × DieUnit} (ha : a ∈ placeUnits 0 xs) (hb : b ∈ placeUnits 0 xs) {o : Nat}
    (h1 : a.1 ≤ o ∧ o < a.1 + a.2.encode.length) (h2 : b.1 ≤ o ∧ o < b.1 + b.2.encode.length) : a = b := by
  have h := (placeUnits_pairwise xs 0).2
  generalize placeUnits 0 xs = l at h ha hb
  induction l with
  | nil => cases ha
  | cons c l ih =>
    rw [List.pairwise_cons] at h
    rcases List.mem_cons.1 ha with rfl | ha' <;> rcases List.mem_cons.1 hb with rfl | hb'
    · rfl
    · have := h.1 _ hb'; omega
    · have := h.1 _ ha'; omega
    · exact ih h.2 ha' hb'

theorem unit_at {d : Sections} {xs : List DieUnit} (h : InfoOk d xs) {uo : Nat} {x : DieUnit} (hp : (uo, x) ∈ placeUnits 0 xs) :
    x ∈ xs ∧ At d.info d.abbr uo x ∧ uo + x.encode.length ≤ d.info.length := by
  obtain ⟨a, b, h1, h2⟩ := placeUnits_split hp
  have hx : x ∈ xs := by rw [h1]; simp
  have hi : d.info = encodeUnits a ++ (x.encode ++ encodeUnits b) := by rw [h.info, h1]; simp [encodeUnits]
  refine ⟨hx, ⟨⟨encodeUnits b, ?_⟩, h.tables x hx, h.fit⟩, ?_⟩
  · rw [hi, h2, Nat.zero_add]; exact List.drop_left
  · rw [hi, h2]; simp only [List.length_append]; omega

/-! ### What is remembered -/

/-- The unit is open, and its tree known. -/
structure UnitOpened (d : Sections) (uo : Nat) (x : DieUnit) (u : Die.Unit) (t : Tree) : Prop where
  isOpen : openUnit d.info d.abbr uo = .ok u
  laid : LaidTree u t
  rel : DieTree.Rel (DieShows d.info x.sizes) t.seen (x.placed uo)
  off : u.offset = uo
  stop : u.stop = uo + x.encode.length
  root : u.rootOffset = uo + x.rootPos
  sizes : SizesOf u x.sizes

theorem opened {d : Sections} {xs : List DieUnit} (h : InfoOk d xs) {uo : Nat} {x : DieUnit} (hp : (uo, x) ∈ placeUnits 0 xs) : ∃ u t, UnitOpened d uo x u t := by
  obtain ⟨h1, h2, _⟩ := unit_at h hp
  obtain ⟨u, t, g1, g2, g3, _, g4, g5, g6, g7⟩ := open_unit (h.units x h1).1 (h.units x h1).2 h2
  exact ⟨u, t, g1, g2, g3, g4, g5, g6, g7⟩

/-- What is remembered is what the sections say. -/
structure ISt (d : Sections) (xs : List DieUnit) (s : IState) : Prop where
  loaded : ∀ o ∈ s.loaded, ∃ x, (o, x) ∈ placeUnits 0 xs
  inv : ∀ uo x u t, (uo, x) ∈ placeUnits 0 xs → UnitOpened d uo x u t → ∃ D, DieInv t (s.st uo) D

/-- More is remembered. -/
def IExt (s s' : IState) : Prop := (∀ uo, Ext (s.st uo) (s'.st uo)) ∧ s'.ranges = s.ranges

theorem IExt.refl (s : IState) : IExt s s := ⟨fun _ => Ext.refl _, rfl⟩

theorem IExt.trans {a b c : IState} (h1 : IExt a b) (h2 : IExt b c) : IExt a c := ⟨fun uo => (h1.1 uo).trans (h2.1 uo), h2.2.trans h1.2⟩

/-- The `DIE` is that of the entry, and decoded. -/
structure GoodDie (d : Sections) (xs : List DieUnit) (s : IState) (y : DIE) (uo : Nat) (x : DieUnit) (o : Nat) (e : DieEntry) : Prop where
  isOpen : openUnit d.info d.abbr uo = .ok y.unit
  off : y.unit.offset = uo
  handle : y.h = ⟨(s.st uo).epoch, o⟩
  entry : EntryIn xs uo x o e
  has : Has (s.st uo) o

theorem GoodDie.ext {d : Sections} {xs : List DieUnit} {s s' : IState} {y : DIE} {uo : Nat} {x : DieUnit} {o : Nat} {e : DieEntry}
    (h : GoodDie d xs s y uo x o e) (he : IExt s s') : GoodDie d xs s' y uo x o e :=
  ⟨h.isOpen, h.off, by rw [h.handle, (he.1 uo).1], h.entry, (he.1 uo).has h.has⟩

theorem GoodDie.isEntry {d : Sections} {xs : List DieUnit} {s : IState} {y : DIE} {uo : Nat} {x : DieUnit} {o : Nat} {e : DieEntry}
    (h : GoodDie d xs s y uo x o e) : IsEntry d xs y uo x o e := ⟨h.isOpen, by rw [h.handle], h.entry⟩

theorem offsets_eq {d : Sections} {uo : Nat} {x : DieUnit} {u : Die.Unit} {t : Tree} (h : UnitOpened d uo x u t) : t.seen.map Seen.off = x.offsets uo :=
  treeRel_map (fun _ _ h => h.1) h.rel

theorem goto_any {u : Die.Unit} {t : Tree} (ht : LaidTree u t) {s : State} {D : Nat → Prop} (h : DieInv t s D) {o : Nat} (ho : EntryAt t o) :
    ∃ s', offsetToDIE u none o s = .ok (some ⟨s.epoch, o⟩, s') ∧ DieInv t s' D ∧ Ext s s' ∧ Has s' o := by
  rcases ho with e | ⟨par, g, hm, hg, hgo⟩
  · obtain ⟨s', g1, g2, g3, g4⟩ := goto_root ht h
    unfold root at g1
    rw [← ht.1, ← e] at g1
    exact ⟨s', g1, g2, g3, by rw [e]; exact g4⟩
  · obtain ⟨s', g1, g2, g3, g4⟩ := goto_entry ht h hm hg none (fun x hx => nomatch hx)
    rw [hgo] at g1 g4
    exact ⟨s', g1, g2, g3, g4⟩

section
variable {d : Sections} {xs : List DieUnit} (hok : InfoOk d xs)
include hok

theorem inUnit_entry {s : IState} (hs : ISt d xs s) {uo : Nat} {x : DieUnit} {o : Nat} {e : DieEntry} (he : EntryIn xs uo x o e) {u : Die.Unit}
    (hu : openUnit d.info d.abbr uo = .ok u) :
    ∃ y s', inUnit u o s = .ok (some y, s') ∧ ISt d xs s' ∧ IExt s s' ∧ GoodDie d xs s' y uo x o e ∧ s'.loaded = s.loaded := by
  obtain ⟨u', t, hop⟩ := opened hok he.1
  have : u' = u := by have := hop.isOpen; rw [hu] at this; injection this with this; exact this.symm
  subst this
  obtain ⟨D, hD⟩ := hs.inv uo x u' t he.1 hop
  have hat : ∀ t, UnitOpened d uo x u' t → EntryAt t o := by
    intro t ht
    rw [← tree_all, offsets_eq ht]; exact mem_offsets he.2
  obtain ⟨t', g1, g2, g3, g4⟩ := goto_any hop.laid hD (hat t hop)
  have hst : (s.setSt uo t').st uo = t' := by simp [IState.setSt]
  have hst' : ∀ o, o ≠ uo → (s.setSt uo t').st o = s.st o := by intro o ho; simp [IState.setSt, ho]
  refine ⟨⟨u', ⟨(s.st uo).epoch, o⟩⟩, s.setSt uo t', ?_, ⟨hs.loaded, ?_⟩, ⟨?_, rfl⟩, ⟨hu, hop.off, ?_, he, ?_⟩, rfl⟩
  · unfold inUnit
    rw [hop.off, g1]; rfl
  · intro uo2 x2 u2 t2 hp2 ho2
    by_cases h : uo2 = uo
    · subst h
      have hx : x2 = x := by
        have := units_inj hp2 he.1 (o := uo2) ⟨Nat.le_refl _, by have := unit_ne x2; simp only; omega⟩ ⟨Nat.le_refl _, by have := unit_ne x; simp only; omega⟩
        injection this
      subst hx
      have : u2 = u' := by have := ho2.isOpen; rw [hu] at this; injection this with this; exact this.symm
      subst this
      obtain ⟨D2, hD2⟩ := hs.inv uo2 x2 u2 t2 hp2 ho2
      obtain ⟨t'', k1, k2, _⟩ := goto_any ho2.laid hD2 (hat t2 ho2)
      rw [g1] at k1
      injection k1 with k1; injection k1 with _ k1
      rw [hst, k1]
      exact ⟨D2, k2⟩
    · rw [hst' _ h]; exact hs.inv uo2 x2 u2 t2 hp2 ho2
  · intro o2
    by_cases h : o2 = uo
    · subst h; rw [hst]; exact g3
    · rw [hst' _ h]; exact Ext.refl _
  · rw [hst, g3.1]
  · rw [hst]; exact g4

theorem unit_start {uo : Nat} {x : DieUnit} (hp : (uo, x) ∈ placeUnits 0 xs) {s : IState} (hs : ISt d xs s) :
    ∃ u s', getUnit d uo s = .ok (u, s') ∧ openUnit d.info d.abbr uo = .ok u ∧ ISt d xs s' ∧ IExt s s' := by
  obtain ⟨u, t, hop⟩ := opened hok hp
  refine ⟨u, ⟨uo :: s.loaded, s.st, s.ranges⟩, ?_, hop.isOpen, ⟨?_, hs.inv⟩, IExt.refl _⟩
  · unfold getUnit; rw [hop.isOpen]; rfl
  · intro o ho
    rcases List.mem_cons.1 ho with rfl | ho
    · exact ⟨x, hp⟩
    · exact hs.loaded o ho

/-- The search through the units, from any of those before the entry. -/
theorem search_from (ys : List DieUnit) : ∀ (a : List DieUnit) (y : DieUnit) (fuel : Nat) (u : Die.Unit) (s : IState) (uo : Nat) (x : DieUnit) (o : Nat) (e : DieEntry),
    xs = a ++ y :: ys → ys.length < fuel → openUnit d.info d.abbr (encodeUnits a).length = .ok u → ISt d xs s → EntryIn xs uo x o e →
    (uo, x) ∈ placeUnits (encodeUnits a).length (y :: ys) →
    ∃ z s', searchUnits d o fuel u s = .ok (z, s') ∧ ISt d xs s' ∧ IExt s s' ∧ GoodDie d xs s' z uo x o e := by
  induction ys with
  | nil =>
    intro a y fuel u s uo x o e hxs hf hu hs he hm
    have hm : (uo, x) = ((encodeUnits a).length, y) := by simpa [placeUnits] using hm
    injection hm with h1 h2
    subst h1; subst h2
    obtain ⟨u', t, hop⟩ := opened hok he.1
    have : u' = u := by have := hop.isOpen; rw [hu] at this; injection this with this; exact this.symm
    subst this
    have hb := (placed_pairwise x (encodeUnits a).length).1 _ he.2
    obtain ⟨z, s', g1, g2, g3, g4, _⟩ := inUnit_entry hok hs he hu
    obtain ⟨f, rfl⟩ : ∃ f, fuel = f + 1 := ⟨fuel - 1, by omega⟩
    refine ⟨z, s', ?_, g2, g3, g4⟩
    rw [searchUnits, if_pos (by rw [hop.stop]; exact hb.2), if_pos (by rw [hop.off]; have := hb.1; simp only at this; omega), g1]
    rfl
  | cons y' ys ih =>
    intro a y fuel u s uo x o e hxs hf hu hs he hm
    obtain ⟨f, rfl⟩ : ∃ f, fuel = f + 1 := ⟨fuel - 1, by omega⟩
    have hb := (placed_pairwise x uo).1 _ he.2
    have hpy : ((encodeUnits a).length, y) ∈ placeUnits 0 xs := by
      rw [hxs, placeUnits_append]; simp [placeUnits]
    obtain ⟨u', t, hop⟩ := opened hok hpy
    have : u' = u := by have := hop.isOpen; rw [hu] at this; injection this with this; exact this.symm
    subst this
    rcases List.mem_cons.1 hm with hm | hm
    · injection hm with h1 h2
      subst h1; subst h2
      obtain ⟨z, s', g1, g2, g3, g4, _⟩ := inUnit_entry hok hs he hu
      refine ⟨z, s', ?_, g2, g3, g4⟩
      rw [searchUnits, if_pos (by rw [hop.stop]; exact hb.2), if_pos (by rw [hop.off]; have := hb.1; simp only at this; omega), g1]
      rfl
    · have hl : (encodeUnits (a ++ [y])).length = (encodeUnits a).length + y.encode.length := by simp [encodeUnits]
      have hge := (placeUnits_pairwise (y' :: ys) ((encodeUnits a).length + y.encode.length)).1 _ hm
      have hpy' : ((encodeUnits (a ++ [y])).length, y') ∈ placeUnits 0 xs := by
        rw [hxs, show a ++ y :: y' :: ys = (a ++ [y]) ++ y' :: ys by simp, placeUnits_append]; simp [placeUnits]
      obtain ⟨v, s1, k1, k2, k3, k4⟩ := unit_start hok hpy' hs
      obtain ⟨z, s', g1, g2, g3, g4⟩ := ih (a ++ [y]) y' f v s1 uo x o e (by rw [hxs]; simp) (by simp at hf; omega) k2 k3 he (by rw [hl]; exact hm)
      refine ⟨z, s', ?_, g2, k4.trans g3, g4⟩
      have hinf := (unit_at hok hpy').2.2
      have := unit_ne y'
      rw [searchUnits, if_neg (by rw [hop.stop]; have := hb.1; simp only at this hge; omega)]
      unfold nextUnit
      rw [if_neg (by rw [hop.stop]; omega), hop.stop, ← hl, k1]
      exact g1

omit hok in
theorem foldl_max (l : List Nat) : ∀ a, l.foldl max a = a ∨ l.foldl max a ∈ l := by
  induction l with
  | nil => intro a; exact .inl rfl
  | cons b l ih =>
    intro a
    rw [List.foldl_cons]
    rcases ih (max a b) with h | h
    · rw [h]
      rcases Nat.le_total a b with h' | h'
      · rw [Nat.max_eq_right h']; exact .inr List.mem_cons_self
      · rw [Nat.max_eq_left h']; exact .inl rfl
    · exact .inr (List.mem_cons_of_mem _ h)

/-- An entry is found whatever units are open. -/
theorem info_goto {s : IState} (hs : ISt d xs s) {uo : Nat} {x : DieUnit} {o : Nat} {e : DieEntry} (he : EntryIn xs uo x o e) :
    ∃ z s', infoOffsetToDIE d o s = .ok (z, s') ∧ ISt d xs s' ∧ IExt s s' ∧ GoodDie d xs s' z uo x o e := by
  have hb := (placed_pairwise x uo).1 _ he.2
  simp only at hb
  have hstart : ∃ y, (searchStart s.loaded o, y) ∈ placeUnits 0 xs ∧ searchStart s.loaded o ≤ o := by
    unfold searchStart
    rcases foldl_max (s.loaded.filter (· ≤ o)) 0 with h | h
    · rw [h]
      cases xs with
      | nil => cases he.1
      | cons y ys => exact ⟨y, List.mem_cons_self, Nat.zero_le _⟩
    · obtain ⟨h1, h2⟩ := List.mem_filter.1 h
      obtain ⟨y, hy⟩ := hs.loaded _ h1
      exact ⟨y, hy, by simpa using h2⟩
  obtain ⟨y, h1, h2⟩ := hstart
  generalize hst : searchStart s.loaded o = st at h1 h2
  obtain ⟨a, b, e1, e2⟩ := placeUnits_split h1
  rw [Nat.zero_add] at e2
  obtain ⟨u, s1, k1, k2, k3, k4⟩ := unit_start hok h1 hs
  have hmem : (uo, x) ∈ placeUnits (encodeUnits a).length (y :: b) := by
    have hm := he.1
    rw [e1, placeUnits_append] at hm
    rcases List.mem_append.1 hm with hm | hm
    · exfalso
      have hp := (placeUnits_pairwise xs 0).2
      rw [e1, placeUnits_append, List.pairwise_append] at hp
      have := hp.2.2 _ hm (st, y) (by rw [e2, Nat.zero_add]; exact List.mem_cons_self)
      simp only at this; omega
    · simpa using hm
  have hlen : b.length < d.info.length + 1 := by
    have h := flatten_ge DieUnit.encode xs (fun x _ => by have := unit_ne x; intro h; rw [h] at this; simp at this)
    rw [hok.info]
    have : xs.length = a.length + b.length + 1 := by rw [e1]; simp; omega
    unfold encodeUnits
    omega
  obtain ⟨z, s', g1, g2, g3, g4⟩ := search_from hok b a y (d.info.length + 1) u s1 uo x o e e1 hlen (by rw [← e2]; exact k2) k3 he hmem
  refine ⟨z, s', ?_, g2, k4.trans g3, g4⟩
  unfold infoOffsetToDIE
  rw [hst, k1]
  exact g1

/-- A reference to an entry leads there. -/
theorem goto_ref {s : IState} (hs : ISt d xs s) {uo : Nat} {x : DieUnit} {o : Nat} {e : DieEntry} (he : EntryIn xs uo x o e) {uo' : Nat} {x' : DieUnit}
    (hp : (uo', x') ∈ placeUnits 0 xs) {u : Die.Unit} (hu : openUnit d.info d.abbr uo' = .ok u) :
    ∃ z s', gotoDIE d u o s = .ok (some z, s') ∧ ISt d xs s' ∧ IExt s s' ∧ GoodDie d xs s' z uo x o e := by
  obtain ⟨u', t, hop⟩ := opened hok hp
  have : u' = u := by have := hop.isOpen; rw [hu] at this; injection this with this; exact this.symm
  subst this
  have hb := (placed_pairwise x uo).1 _ he.2
  simp only at hb
  unfold gotoDIE
  by_cases hin : u'.offset ≤ o ∧ u'.stop > o
  · rw [if_pos hin]
    have : (uo, x) = (uo', x') := units_inj he.1 hp (o := o) ⟨by simp only; omega, hb.2⟩ ⟨by simp only; rw [← hop.off]; exact hin.1, by simp only; rw [← hop.stop]; exact hin.2⟩
    injection this with h1 h2
    subst h1; subst h2
    obtain ⟨z, s', g1, g2, g3, g4, _⟩ := inUnit_entry hok hs he hu
    exact ⟨z, s', by rw [g1]; rfl, g2, g3, g4⟩
  · rw [if_neg hin]
    obtain ⟨z, s', g1, g2, g3, g4⟩ := info_goto hok hs he
    exact ⟨z, s', by rw [g1]; rfl, g2, g3, g4⟩

/-! ### The attributes of an entry -/

/-- A decoded entry shows its attributes. -/
theorem good_raw {s : IState} (hs : ISt d xs s) {y : DIE} {uo : Nat} {x : DieUnit} {o : Nat} {e : DieEntry} (hg : GoodDie d xs s y uo x o e) :
    ∃ r, rawOf s y = .ok r ∧ r.type.tag = e.decl.tag ∧ r.type.names = namesFrom 0 e.decl.attrs ∧
      AttrsShow d.info x.sizes 0 e.decl.attrs e.vals r.type.names r.type.forms r.values := by
  obtain ⟨u, t, hop⟩ := opened hok hg.entry.1
  obtain ⟨D, hD⟩ := hs.inv uo x u t hg.entry.1 hop
  obtain ⟨v, s1, s2⟩ := seen_at hD hg.has
  obtain ⟨⟨o', e'⟩, m1, m2⟩ := treeRel_mem hop.rel v (ent_mem s2)
  have ho : o' = o := by rw [← s2.1]; exact m2.1.symm
  subst ho
  have : e' = e := placed_inj m1 hg.entry.2
  subst this
  unfold seen at s1
  unfold rawOf
  rw [hg.off, hg.handle]
  cases hr : (s.st uo).get ⟨(s.st uo).epoch, o'⟩ with
  | none => rw [hr] at s1; cases s1
  | some r =>
    rw [hr] at s1
    injection s1 with s1
    subst s1
    exact ⟨r, rfl, m2.2.1, (attrsShow_names m2.2.2.2).1, m2.2.2.2⟩

theorem own_spec {s : IState} (hs : ISt d xs s) {y : DIE} {uo : Nat} {x : DieUnit} {o : Nat} {e : DieEntry} (hg : GoodDie d xs s y uo x o e) (name : Nat) :
    ownAttr y name s = .ok ((e.find name).map (⟨y, ·⟩)) := by
  obtain ⟨r, h1, _, h2, h3⟩ := good_raw hok hs hg
  unfold ownAttr
  rw [h1, Res.bind_ok, h2, findName_spec]
  unfold DieEntry.find
  cases hf : e.decl.attrs.findIdx? (fun a => decide (a.name = name)) with
  | none => rfl
  | some i =>
    obtain ⟨hi, _⟩ := List.findIdx?_eq_some_iff_getElem.1 hf
    simp only [Option.map_some]
    rw [if_pos (by rw [(attrsShow_names h3).2]; exact hi)]

/-- Attribute number `i` of a decoded entry. -/
theorem attr_shows {s : IState} (hs : ISt d xs s) {y : DIE} {uo : Nat} {x : DieUnit} {o : Nat} {e : DieEntry} (hg : GoodDie d xs s y uo x o e) {i : Nat}
    {b : AttrDecl} (hi : e.decl.attrs[i]? = some b) : ShowsAttr d s ⟨y, i⟩ x e i := by
  obtain ⟨r, h1, _, h2, h3⟩ := good_raw hok hs hg
  obtain ⟨v, f, w, k, g1, g2, g3, g4, g5, g6, g7⟩ := attrsShow_at h3 hi
  refine ⟨b, v, k, w, hi, g1, g6, ?_, ?_, ?_, g7⟩
  · unfold Attr.name
    simp only
    rw [h1, Res.bind_ok, h2]
    cases hf : (namesFrom 0 e.decl.attrs).find? (fun p => decide (p.2 = i)) with
    | none =>
      have := List.find?_eq_none.1 hf _ (namesFrom_mem (i := 0) hi)
      simp at this
    | some p =>
      have hm := List.mem_of_find?_eq_some hf
      have hp := List.find?_some hf
      obtain ⟨j, a, e1, e2⟩ := mem_namesFrom hm
      simp only [decide_eq_true_eq] at hp
      rw [e1] at hp
      simp only [Nat.zero_add] at hp
      subst hp
      rw [hi] at e2; injection e2 with e2
      simp only
      rw [e1, e2]
  · unfold Attr.form
    simp only
    rw [h1, Res.bind_ok, g2]
    simp only [g3]
  · unfold Attr.value
    simp only
    rw [h1, Res.bind_ok, g4]

/-- Following a reference. -/
theorem toDIE_ref {s : IState} (hs : ISt d xs s) {y : DIE} {uo : Nat} {x : DieUnit} {o : Nat} {e : DieEntry} (hg : GoodDie d xs s y uo x o e) {i : Nat}
    {b : AttrDecl} {v : AttrVal} (hi : e.decl.attrs[i]? = some b) (hv : e.vals[i]? = some v) {o' : Nat} (hr : RefTo uo b v o') {uo' : Nat} {x' : DieUnit} {e' : DieEntry}
    (he : EntryIn xs uo' x' o' e') :
    ∃ z s', toDIE d (some ⟨y, i⟩) s = .ok (some z, s') ∧ ISt d xs s' ∧ IExt s s' ∧ GoodDie d xs s' z uo' x' o' e' := by
  obtain ⟨b', v', k, w, h1, h2, h3, _, h4, h5, h6⟩ := attr_shows hok hs hg hi
  rw [hi] at h1; injection h1 with h1; subst h1
  rw [hv] at h2; injection h2 with h2; subst h2
  have hw : (o' : Nat) < 2 ^ 64 := by
    have := (placed_pairwise x' uo').1 _ he.2
    have h := (unit_at hok he.1).2.2
    have := hok.fit.1
    simp only at *; omega
  obtain ⟨z, s', g1, g2, g3, g4⟩ := goto_ref hok hs he hg.entry.1 hg.isOpen
  refine ⟨z, s', ?_, g2, g3, g4⟩
  obtain ⟨n, rfl, hr⟩ := hr
  unfold toDIE
  simp only
  rw [h4, Res.bind_ok]
  have hword : ∀ q : BitVec 64, w = .word q → Attr.word s ⟨y, i⟩ = .ok q := by
    intro q hq
    unfold Attr.word
    rw [h5, hq]; rfl
  rcases hr with ⟨hl, ho⟩ | ⟨hl, ho⟩
  · obtain ⟨q, hq1, hq2⟩ := localRef_means hl h3 h6
    have hsum : (q + BitVec.ofNat 64 y.unit.offset).toNat = o' := by
      rw [BitVec.toNat_add, hq2, hg.off, BitVec.toNat_ofNat, ho]
      rw [ho] at hw
      omega
    have hf : b.form = 0x11 ∨ b.form = 0x12 ∨ b.form = 0x13 ∨ b.form = 0x14 ∨ b.form = 0x15 := by unfold IsLocalRef at hl; omega
    rcases hf with hf | hf | hf | hf | hf <;> (rw [hf]; simp only; rw [hword q hq1, Res.bind_ok, hsum]; exact g1)
  · rw [hl] at h3
    have hk : k = .refAddr := by simpa [formKind] using h3.symm
    subst hk
    obtain ⟨q, hq1, hq2⟩ := h6
    rw [hl]; simp only
    rw [hword q hq1, Res.bind_ok, hq2, ← ho]; exact g1

/-- What following an attribute can lead to. -/
theorem toDIE_any (hrefs : RefsOk xs) {s : IState} (hs : ISt d xs s) {y : DIE} {uo : Nat} {x : DieUnit} {o : Nat} {e : DieEntry} (hg : GoodDie d xs s y uo x o e) {i : Nat}
    {b : AttrDecl} (hi : e.decl.attrs[i]? = some b) (hn : b.name ≠ 1) :
    toDIE d (some ⟨y, i⟩) s = .exc ∨ ∃ uo' x' o' e' z s' v, e.vals[i]? = some v ∧ RefTo uo b v o' ∧ toDIE d (some ⟨y, i⟩) s = .ok (some z, s') ∧
      ISt d xs s' ∧ IExt s s' ∧ GoodDie d xs s' z uo' x' o' e' := by
  obtain ⟨b', v, k, w, h1, h2, h3, _, h4, h5, h6⟩ := attr_shows hok hs hg hi
  rw [hi] at h1; injection h1 with h1; subst h1
  have go : ∀ o', RefTo uo b v o' → ∃ uo' x' o' e' z s' v, e.vals[i]? = some v ∧ RefTo uo b v o' ∧ toDIE d (some ⟨y, i⟩) s = .ok (some z, s') ∧
      ISt d xs s' ∧ IExt s s' ∧ GoodDie d xs s' z uo' x' o' e' := by
    intro o' hr
    obtain ⟨uo', x', e', he⟩ := hrefs uo x o e hg.entry i b v o' hi h2 hn hr
    obtain ⟨z, s', g1, g2, g3, g4⟩ := toDIE_ref hok hs hg hi h2 hr he
    exact ⟨uo', x', o', e', z, s', v, h2, hr, g1, g2, g3, g4⟩
  by_cases hl : IsLocalRef b.form
  · right
    have hv : ∃ n, v = .num n := by
      have hf : b.form = 0x11 ∨ b.form = 0x12 ∨ b.form = 0x13 ∨ b.form = 0x14 ∨ b.form = 0x15 := by unfold IsLocalRef at hl; omega
      rcases hf with hf | hf | hf | hf | hf <;>
        (rw [hf] at h3; simp only [formKind, Option.some.injEq] at h3; subst h3; cases v <;> first | exact ⟨_, rfl⟩ | exact h6.elim)
    obtain ⟨n, rfl⟩ := hv
    exact go _ ⟨n, rfl, .inl ⟨hl, rfl⟩⟩
  · by_cases h10 : b.form = 0x10
    · right
      have hv : ∃ n, v = .num n := by
        rw [h10] at h3; simp only [formKind, Option.some.injEq] at h3; subst h3; cases v <;> first | exact ⟨_, rfl⟩ | exact h6.elim
      obtain ⟨n, rfl⟩ := hv
      exact go _ ⟨n, rfl, .inr ⟨h10, rfl⟩⟩
    · left
      unfold toDIE
      simp only
      rw [h4, Res.bind_ok]
      generalize b.form = f at hl h10
      unfold IsLocalRef at hl
      split <;> first | rfl | (exfalso; omega)

omit hok in
theorem find_at {e : DieEntry} {name i : Nat} (h : e.find name = some i) : ∃ b, e.decl.attrs[i]? = some b ∧ b.name = name := by
  obtain ⟨hi, h1, _⟩ := List.findIdx?_eq_some_iff_getElem.1 h
  exact ⟨e.decl.attrs[i], List.getElem?_eq_getElem hi, by simpa using h1⟩

/-- Two entries are the same only if they are at the same place. -/
theorem other_spec {s : IState} {y z : DIE} {uo uo' : Nat} {x x' : DieUnit} {o o' : Nat} {e e' : DieEntry} (hg : GoodDie d xs s y uo x o e) (hg' : GoodDie d xs s z uo' x' o' e') :
    getAttr.other y (some z) = if o' = o then none else some z := by
  unfold getAttr.other
  simp only
  have hiff : sameRaw y z = true ↔ o' = o := by
    unfold sameRaw
    rw [hg.off, hg'.off, hg.handle, hg'.handle]
    simp only [Bool.and_eq_true, beq_iff_eq]
    constructor
    · rintro ⟨rfl, h⟩; injection h with _ h; exact h.symm
    · rintro rfl
      have h1 := (placed_pairwise x uo).1 _ hg.entry.2
      have h2 := (placed_pairwise x' uo').1 _ hg'.entry.2
      simp only at h1 h2
      have := units_inj hg.entry.1 hg'.entry.1 (o := o') ⟨by simp only; omega, h1.2⟩ ⟨by simp only; omega, h2.2⟩
      injection this with h3 h4
      subst h3
      exact ⟨rfl, rfl⟩
  by_cases h : o' = o
  · rw [if_pos h, if_pos (hiff.2 h)]
  · rw [if_neg h, if_neg (fun hc => h (hiff.1 hc))]

/-- Whatever the attribute and however it is looked up: what is remembered stays right, and an attribute that is found is one of an entry. -/
theorem getAttr_good (hrefs : RefsOk xs) (name : Nat) : ∀ (fuel : Nat) (y : DIE) (isLocal : Bool) (s : IState) (r : Option Attr) (s' : IState) (uo : Nat) (x : DieUnit) (o : Nat)
    (e : DieEntry), ISt d xs s → GoodDie d xs s y uo x o e → getAttr d fuel y name isLocal s = .ok (r, s') →
    ISt d xs s' ∧ IExt s s' ∧ ∀ a, r = some a → ∃ uo' x' o' e', GoodDie d xs s' a.die uo' x' o' e' ∧ e'.find name = some a.idx := by
  intro fuel
  induction fuel with
  | zero => intro y isLocal s r s' uo x o e _ _ h; cases h
  | succ fuel ih =>
    intro y isLocal s r s' uo x o e hs hg h
    rw [getAttr, own_spec hok hs hg, Res.bind_ok] at h
    cases hf : e.find name with
    | some i =>
      rw [hf] at h
      simp only [Option.map_some] at h
      injection h with h; injection h with h1 h2
      subst h1; subst h2
      refine ⟨hs, IExt.refl _, ?_⟩
      intro a ha
      injection ha with ha; subst ha
      exact ⟨uo, x, o, e, hg, hf⟩
    | none =>
      rw [hf] at h
      simp only [Option.map_none] at h
      by_cases hc : isLocal = true ∨ name = 0x3c ∨ name = 0x31 ∨ name = 0x47
      · rw [if_pos hc] at h
        injection h with h; injection h with h1 h2
        subst h1; subst h2
        exact ⟨hs, IExt.refl _, fun a ha => nomatch ha⟩
      · rw [if_neg hc] at h
        have second : ∀ s1, ISt d xs s1 → GoodDie d xs s1 y uo x o e → (do
              let spec ← ownAttr y 0x47 s1
              let (ao, s) ← toDIE d spec s1
              match getAttr.other y ao with
              | some ao => getAttr d fuel ao name false s
              | none => Res.ok (none, s)) = Res.ok (r, s') →
            ISt d xs s' ∧ IExt s1 s' ∧ ∀ a, r = some a → ∃ uo' x' o' e', GoodDie d xs s' a.die uo' x' o' e' ∧ e'.find name = some a.idx := by
          intro s1 hs1 hg1 h
          rw [own_spec hok hs1 hg1, Res.bind_ok] at h
          cases hf2 : e.find 0x47 with
          | none =>
            rw [hf2] at h
            simp only [Option.map_none, toDIE, Res.bind_ok, getAttr.other] at h
            injection h with h; injection h with h1 h2
            subst h1; subst h2
            exact ⟨hs1, IExt.refl _, fun a ha => nomatch ha⟩
          | some i =>
            rw [hf2] at h
            simp only [Option.map_some] at h
            obtain ⟨b, hb1, hb2⟩ := find_at hf2
            rcases toDIE_any hok hrefs hs1 hg1 hb1 (by rw [hb2]; decide) with h0 | ⟨uo', x', o', e', z, s2, v, k1, k2, k3, k4, k5, k6⟩
            · rw [h0] at h; cases h
            · rw [k3, Res.bind_ok] at h
              simp only at h
              rw [other_spec hok (hg1.ext k5) k6] at h
              by_cases ho : o' = o
              · rw [if_pos ho] at h
                injection h with h; injection h with h1 h2
                subst h1; subst h2
                exact ⟨k4, k5, fun a ha => nomatch ha⟩
              · rw [if_neg ho] at h
                obtain ⟨j1, j2, j3⟩ := ih z false s2 r s' uo' x' o' e' k4 k6 h
                exact ⟨j1, k5.trans j2, j3⟩
        rw [own_spec hok hs hg, Res.bind_ok] at h
        cases hf1 : e.find 0x31 with
        | none =>
          rw [hf1] at h
          simp only [Option.map_none, toDIE, Res.bind_ok, getAttr.other] at h
          exact second s hs hg h
        | some i =>
          rw [hf1] at h
          simp only [Option.map_some] at h
          obtain ⟨b, hb1, hb2⟩ := find_at hf1
          rcases toDIE_any hok hrefs hs hg hb1 (by rw [hb2]; decide) with h0 | ⟨uo', x', o', e', z, s2, v, k1, k2, k3, k4, k5, k6⟩
          · rw [h0] at h; cases h
          · rw [k3, Res.bind_ok] at h
            simp only at h
            rw [other_spec hok (hg.ext k5) k6] at h
            by_cases ho : o' = o
            · rw [if_pos ho] at h
              simp only at h
              obtain ⟨j1, j2, j3⟩ := second s2 k4 (hg.ext k5) h
              exact ⟨j1, k5.trans j2, j3⟩
            · rw [if_neg ho] at h
              obtain ⟨j1, j2, j3⟩ := ih z false s2 r s' uo' x' o' e' k4 k6 h
              exact ⟨j1, k5.trans j2, j3⟩

/-- The attribute is that of the entry it is to be from. -/
def FoundGood (d : Sections) (xs : List DieUnit) (s : IState) (name : Nat) (r : Option (Nat × DieUnit × Nat × DieEntry × Nat)) (a : Option Attr) : Prop :=
  match r with
  | none => a = none
  | some (uo, x, o, e, i) => ∃ z, a = some ⟨z, i⟩ ∧ GoodDie d xs s z uo x o e ∧ e.find name = some i

omit hok in
theorem toDIE_none (s : IState) : toDIE d none s = .ok (none, s) := rfl

/-- The attribute found is the one inherited, unless the recursion is cut short. -/
theorem getAttr_inherits {name : Nat} (hn : name ≠ 0x3c ∧ name ≠ 0x31 ∧ name ≠ 0x47) {uo o : Nat} {e : DieEntry} {r : Option (Nat × DieUnit × Nat × DieEntry × Nat)}
    (hi : Inherits xs name uo o e r) : ∃ n, ∀ (fuel : Nat) (y : DIE) (x : DieUnit) (s : IState), n ≤ fuel → ISt d xs s → GoodDie d xs s y uo x o e →
    ∃ a s', getAttr d fuel y name false s = .ok (a, s') ∧ ISt d xs s' ∧ IExt s s' ∧ FoundGood d xs s' name r a := by
  have hc : ¬(false = true ∨ name = 0x3c ∨ name = 0x31 ∨ name = 0x47) := by
    rintro (h | h | h | h)
    · cases h
    · exact hn.1 h
    · exact hn.2.1 h
    · exact hn.2.2 h
  induction hi with
  | @own uo x o e i he hf =>
    refine ⟨1, ?_⟩
    intro fuel y x' s hfuel hs hg
    obtain ⟨f, rfl⟩ : ∃ f, fuel = f + 1 := ⟨fuel - 1, by omega⟩
    have hx : (uo, x') = (uo, x) := units_inj hg.entry.1 he.1 (o := uo) ⟨Nat.le_refl _, by have := unit_ne x'; simp only; omega⟩ ⟨Nat.le_refl _, by have := unit_ne x; simp only; omega⟩
    injection hx with _ hx
    subst hx
    refine ⟨some ⟨y, i⟩, s, ?_, hs, IExt.refl _, y, rfl, hg, hf⟩
    rw [getAttr, own_spec hok hs hg, Res.bind_ok, hf]
    rfl
  | @origin uo o e uo' x' o' e' r hf hr he ho hi ih =>
    obtain ⟨n, ih⟩ := ih
    refine ⟨n + 1, ?_⟩
    intro fuel y x s hfuel hs hg
    obtain ⟨f, rfl⟩ : ∃ f, fuel = f + 1 := ⟨fuel - 1, by omega⟩
    obtain ⟨i, b, v, hf1, hb, hv, hr⟩ := hr
    obtain ⟨z, s2, k1, k2, k3, k4⟩ := toDIE_ref hok hs hg hb hv hr he
    obtain ⟨a, s', g1, g2, g3, g4⟩ := ih f z x' s2 (by omega) k2 k4
    refine ⟨a, s', ?_, g2, k3.trans g3, g4⟩
    rw [getAttr, own_spec hok hs hg, Res.bind_ok, hf]
    simp only [Option.map_none]
    rw [if_neg hc, own_spec hok hs hg, Res.bind_ok, hf1]
    simp only [Option.map_some]
    rw [k1, Res.bind_ok]
    simp only
    rw [other_spec hok (hg.ext k3) k4, if_neg ho]
    exact g1
  | @specification uo o e uo' x' o' e' r hf hf31 hr he ho hi ih =>
    obtain ⟨n, ih⟩ := ih
    refine ⟨n + 1, ?_⟩
    intro fuel y x s hfuel hs hg
    obtain ⟨f, rfl⟩ : ∃ f, fuel = f + 1 := ⟨fuel - 1, by omega⟩
    obtain ⟨i, b, v, hf1, hb, hv, hr⟩ := hr
    obtain ⟨z, s2, k1, k2, k3, k4⟩ := toDIE_ref hok hs hg hb hv hr he
    obtain ⟨a, s', g1, g2, g3, g4⟩ := ih f z x' s2 (by omega) k2 k4
    refine ⟨a, s', ?_, g2, k3.trans g3, g4⟩
    rw [getAttr, own_spec hok hs hg, Res.bind_ok, hf]
    simp only [Option.map_none]
    rw [if_neg hc, own_spec hok hs hg, Res.bind_ok, hf31]
    simp only [Option.map_none, toDIE_none, Res.bind_ok, getAttr.other]
    rw [own_spec hok hs hg, Res.bind_ok, hf1]
    simp only [Option.map_some]
    rw [k1, Res.bind_ok]
    simp only
    have := other_spec hok (hg.ext k3) k4
    simp only [getAttr.other] at this
    rw [if_neg ho] at this
    rw [this]
    exact g1
  | @nowhere uo o e hf hf1 hf2 =>
    refine ⟨1, ?_⟩
    intro fuel y x s hfuel hs hg
    obtain ⟨f, rfl⟩ : ∃ f, fuel = f + 1 := ⟨fuel - 1, by omega⟩
    refine ⟨none, s, ?_, hs, IExt.refl _, rfl⟩
    rw [getAttr, own_spec hok hs hg, Res.bind_ok, hf]
    simp only [Option.map_none]
    rw [if_neg hc, own_spec hok hs hg, Res.bind_ok, hf1]
    simp only [Option.map_none, toDIE_none, Res.bind_ok, getAttr.other]
    rw [own_spec hok hs hg, Res.bind_ok, hf2]
    rfl

end

end Pstack.Props
