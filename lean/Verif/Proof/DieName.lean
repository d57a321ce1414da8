import Verif.Proof.Inlined
import Verif.Spec.DieName
import Verif.Model.DieName
/-
The name of a function.
-/
namespace Pstack.Props
open Pstack.Reader Pstack.Spec Pstack.Dwarf Pstack.Die

/-! ### Parents -/

theorem withParent_map {α β : Type} (h : α → β) (f : Forest α) : ∀ {p a b : α}, (a, b) ∈ f.withParent p → (h a, h b) ∈ (f.map h).withParent (h p) := by
  induction f with
  | done => intro p a b m; cases m
  | leaf c r ih =>
    intro p a b m
    rcases List.mem_cons.1 m with m | m
    · injection m with m1 m2; subst m1; subst m2; exact List.mem_cons_self
    · exact List.mem_cons_of_mem _ (ih m)
  | node c k r ihk ihr =>
    intro p a b m
    rcases List.mem_cons.1 m with m | m
    · injection m with m1 m2; subst m1; subst m2; exact List.mem_cons_self
    · refine List.mem_cons_of_mem _ (List.mem_append.2 ?_)
      rcases List.mem_append.1 m with m | m
      · exact .inl (ihk m)
      · exact .inr (ihr m)

theorem withParent_all {α : Type} (f : Forest α) : ∀ {p a b : α}, (a, b) ∈ f.withParent p → (a = p ∨ a ∈ f.all) ∧ b ∈ f.all := by
  induction f with
  | done => intro p a b m; cases m
  | leaf c r ih =>
    intro p a b m
    rcases List.mem_cons.1 m with m | m
    · injection m with m1 m2; subst m1; subst m2; exact ⟨.inl rfl, List.mem_cons_self⟩
    · obtain ⟨h1, h2⟩ := ih m
      exact ⟨h1.imp id (List.mem_cons_of_mem _), List.mem_cons_of_mem _ h2⟩
  | node c k r ihk ihr =>
    intro p a b m
    rw [all_node]
    rcases List.mem_cons.1 m with m | m
    · injection m with m1 m2; subst m1; subst m2; exact ⟨.inl rfl, List.mem_cons_self⟩
    · rcases List.mem_append.1 m with m | m
      · obtain ⟨h1, h2⟩ := ihk m
        refine ⟨.inr ?_, List.mem_cons_of_mem _ (List.mem_append_left _ h2)⟩
        rcases h1 with rfl | h1
        · exact List.mem_cons_self
        · exact List.mem_cons_of_mem _ (List.mem_append_left _ h1)
      · obtain ⟨h1, h2⟩ := ihr m
        exact ⟨h1.imp id (fun h => List.mem_cons_of_mem _ (List.mem_append_right _ h)), List.mem_cons_of_mem _ (List.mem_append_right _ h2)⟩

theorem parent_all {x : DieUnit} {uo po o : Nat} {pe e : DieEntry} (h : ParentOf x uo po pe o e) : (po, pe) ∈ (x.placed uo).all ∧ (o, e) ∈ (x.placed uo).all := by
  unfold ParentOf at h
  generalize x.placed uo = t at h
  obtain ⟨r, k⟩ := t
  cases k with
  | none => cases h
  | some f =>
    obtain ⟨h1, h2⟩ := withParent_all f (show _ ∈ f.withParent r from h)
    have e : (DieTree.mk r (some f)).all = r :: f.all := rfl
    rw [e]
    exact ⟨List.mem_cons.2 h1, List.mem_cons_of_mem _ h2⟩

theorem parent_offsets {x : DieUnit} {uo po o : Nat} {pe e : DieEntry} (h : ParentOf x uo po pe o e) : (po, o) ∈ (x.offsets uo).withParent := by
  unfold ParentOf at h
  unfold DieUnit.offsets
  generalize x.placed uo = t at h
  obtain ⟨r, k⟩ := t
  cases k with
  | none => cases h
  | some f => exact withParent_map (·.1) f (show _ ∈ f.withParent r from h)

section
variable {d : Sections} {xs : List DieUnit} (hok : InfoOk d xs)

theorem same_unit {uo : Nat} {x x' : DieUnit} (h : (uo, x) ∈ placeUnits 0 xs) (h' : (uo, x') ∈ placeUnits 0 xs) : x = x' := by
  have := units_inj h h' (o := uo) ⟨Nat.le_refl _, by have := unit_ne x; simp only; omega⟩ ⟨Nat.le_refl _, by have := unit_ne x'; simp only; omega⟩
  injection this

/-- More remembered of one unit. -/
theorem setSt_keep {s : IState} (hs : ISt d xs s) {uo : Nat} {x : DieUnit} {t' : State} (hp : (uo, x) ∈ placeUnits 0 xs)
    (hinv : ∀ u t, UnitOpened d uo x u t → ∃ D, DieInv t t' D) (he : Ext (s.st uo) t') : Kept d xs s (s.setSt uo t') := by
  have hst : (s.setSt uo t').st uo = t' := by simp [IState.setSt]
  have hst' : ∀ o, o ≠ uo → (s.setSt uo t').st o = s.st o := by intro o ho; simp [IState.setSt, ho]
  refine ⟨⟨hs.loaded, ?_⟩, ?_, rfl⟩
  · intro uo2 x2 u2 t2 hp2 ho2
    by_cases h : uo2 = uo
    · subst h
      have := same_unit hp hp2
      subst this
      rw [hst]; exact hinv u2 t2 ho2
    · rw [hst' _ h]; exact hs.inv uo2 x2 u2 t2 hp2 ho2
  · intro o2
    by_cases h : o2 = uo
    · subst h; rw [hst]; exact he
    · rw [hst' _ h]; exact Ext.refl _

include hok

/-- The parent of an entry. -/
theorem parentOf_spec {s : IState} (hs : ISt d xs s) {y : DIE} {uo : Nat} {x : DieUnit} {o : Nat} {e : DieEntry} (hg : GoodDie d xs s y uo x o e) {po : Nat} {pe : DieEntry}
    (h : ParentOf x uo po pe o e) : ∃ s', parentOf y s = .ok (po, s') ∧ Kept d xs s s' := by
  have hpar : ∀ u t, openUnit d.info d.abbr uo = .ok u → UnitOpened d uo x u t →
      ∃ s' D', getParentOffset u (enough u) ⟨(s.st uo).epoch, o⟩ (s.st uo) = .ok (po, s') ∧ DieInv t s' D' ∧ Ext (s.st uo) s' := by
    intro u t hu hop
    obtain ⟨D, hD⟩ := hs.inv uo x u t hg.entry.1 hop
    have hw := parent_offsets h
    rw [← offsets_eq hop, tree_withParent] at hw
    obtain ⟨g, h1, h2, h3⟩ := hw
    obtain ⟨s', D', k⟩ := parent_at hop.laid hD h1 h2 (h3 ▸ hg.has) (Nat.le_refl _)
    rw [h3] at k
    exact ⟨s', D', k⟩
  obtain ⟨u, t, hop⟩ := opened hok hg.entry.1
  have hu : u = y.unit := by have := hop.isOpen; rw [hg.isOpen] at this; injection this with this; exact this.symm
  subst hu
  obtain ⟨t', D', k1, k2, k3⟩ := hpar _ t hg.isOpen hop
  refine ⟨s.setSt uo t', ?_, setSt_keep hs hg.entry.1 ?_ k3⟩
  · unfold parentOf
    rw [hg.off, hg.handle, k1]; rfl
  · intro u2 t2 hop2
    have hu : u2 = y.unit := by have := hop2.isOpen; rw [hg.isOpen] at this; injection this with this; exact this.symm
    subst hu
    obtain ⟨t'', D'', j1, j2, _⟩ := hpar _ t2 hg.isOpen hop2
    rw [k1] at j1; injection j1 with j1; injection j1 with _ j1
    exact ⟨D'', j1 ▸ j2⟩

/-! ### Names -/

theorem getAttr_link {s : IState} (hs : ISt d xs s) {y : DIE} {uo : Nat} {x : DieUnit} {o : Nat} {e : DieEntry} (hg : GoodDie d xs s y uo x o e) {name : Nat} (hn : name = 0x31 ∨ name = 0x47)
    {fuel : Nat} (hf : 1 ≤ fuel) : getAttr d fuel y name false s = .ok ((e.find name).map (⟨y, ·⟩), s) := by
  obtain ⟨f, rfl⟩ : ∃ f, fuel = f + 1 := ⟨fuel - 1, by omega⟩
  rw [getAttr, own_spec hok hs hg, Res.bind_ok]
  cases e.find name with
  | some i => rfl
  | none =>
    simp only [Option.map_none]
    rw [if_pos (.inr (.inr hn))]

theorem dieName_spec (hfit : SectionsFit d) {s : IState} (hs : ISt d xs s) {y : DIE} {uo : Nat} {x : DieUnit} {o : Nat} {e : DieEntry} (hg : GoodDie d xs s y uo x o e) (hno : NoLink e)
    {n : List Byte} (h : NameOf d x e n) {fuel : Nat} (hf : 1 ≤ fuel) : ∃ s', dieName d fuel y s = .ok (n, s') ∧ Kept d xs s s' := by
  obtain ⟨f, rfl⟩ : ∃ f, fuel = f + 1 := ⟨fuel - 1, by omega⟩
  unfold dieName
  cases h with
  | @named i a v _ h1 h2 h3 h4 =>
    obtain ⟨s', k1, k2⟩ := toStr_spec hok hfit hs hg h2 h3 h4 hf
    refine ⟨s', ?_, k2⟩
    rw [getAttr, own_spec hok hs hg, Res.bind_ok, h1]
    exact k1
  | anonymous h1 =>
    refine ⟨s, ?_, Kept.refl hs⟩
    rw [getAttr, own_spec hok hs hg, Res.bind_ok, h1]
    simp only [Option.map_none]
    rw [if_neg (by rintro (h | h | h | h) <;> cases h), own_spec hok hs hg, Res.bind_ok, hno.2]
    simp only [Option.map_none, toDIE_none, Res.bind_ok, getAttr.other]
    rw [own_spec hok hs hg, Res.bind_ok, hno.1]
    rfl

/-- Following a link. -/
theorem buildName_link {s : IState} (hs : ISt d xs s) {y : DIE} {uo : Nat} {x : DieUnit} {o : Nat} {e : DieEntry} (hg : GoodDie d xs s y uo x o e) {uo' : Nat} {x' : DieUnit} {o' : Nat}
    {e' : DieEntry} (hl : LinkTo xs uo e uo' x' o' e') {fuel : Nat} (hf : 1 ≤ fuel) (depth : Nat) (first : Bool) :
    ∃ z s', buildName d fuel (depth + 1) (some y) first s = buildName d fuel depth (some z) first s' ∧ Kept d xs s s' ∧ GoodDie d xs s' z uo' x' o' e' := by
  cases hl with
  | specification hr he =>
    obtain ⟨i, a, v, h1, h2, h3, h4⟩ := hr
    obtain ⟨z, s', k1, k2, k3, k4⟩ := toDIE_ref hok hs hg h2 h3 h4 he
    refine ⟨z, s', ?_, ⟨k2, k3⟩, k4⟩
    rw [buildName, getAttr_link hok hs hg (.inr rfl) hf, Res.bind_ok, h1]
    simp only [Option.map_some]
    rw [k1, Res.bind_ok]
  | origin hno hr he =>
    obtain ⟨i, a, v, h1, h2, h3, h4⟩ := hr
    obtain ⟨z, s', k1, k2, k3, k4⟩ := toDIE_ref hok hs hg h2 h3 h4 he
    refine ⟨z, s', ?_, ⟨k2, k3⟩, k4⟩
    rw [buildName, getAttr_link hok hs hg (.inr rfl) hf, Res.bind_ok, hno]
    simp only [Option.map_none]
    rw [getAttr_link hok hs hg (.inl rfl) hf, Res.bind_ok, h1]
    simp only [Option.map_some]
    rw [k1, Res.bind_ok]

theorem buildName_unit {s : IState} (hs : ISt d xs s) {y : DIE} {uo : Nat} {x : DieUnit} {o : Nat} {e : DieEntry} (hg : GoodDie d xs s y uo x o e) (hno : NoLink e)
    (ht : isUnitTag e.decl.tag) {fuel : Nat} (hf : 1 ≤ fuel) (depth : Nat) (first : Bool) : buildName d fuel (depth + 1) (some y) first s = .ok ([], false, s) := by
  obtain ⟨r, r1, r2, _⟩ := good_raw hok hs hg
  rw [buildName, getAttr_link hok hs hg (.inr rfl) hf, Res.bind_ok, hno.1]
  simp only [Option.map_none]
  rw [getAttr_link hok hs hg (.inl rfl) hf, Res.bind_ok, hno.2]
  simp only [Option.map_none]
  rw [r1, Res.bind_ok, r2, if_pos (by simpa [isUnitTag] using ht)]

/-- An entry that has no link and is not a unit: first what is above. -/
theorem buildName_up (hfit : SectionsFit d) {s : IState} (hs : ISt d xs s) {y : DIE} {uo : Nat} {x : DieUnit} {o : Nat} {e : DieEntry} (hg : GoodDie d xs s y uo x o e) (hno : NoLink e)
    (ht : isUnitTag e.decl.tag = false) {po : Nat} {pe : DieEntry} (hp : ParentOf x uo po pe o e) {n : List Byte} (first : Bool) (hn : namesScope first e.decl.tag = true → NameOf d x e n)
    {fuel depth : Nat} (hf : 1 ≤ fuel) {text : List Byte} {printed : Bool}
    (hup : ∀ z s, ISt d xs s → GoodDie d xs s z uo x po pe → ∃ s', buildName d fuel depth (some z) false s = .ok (text, printed, s') ∧ Kept d xs s s') :
    ∃ s', buildName d fuel (depth + 1) (some y) first s =
      .ok (if namesScope first e.decl.tag then qualify text printed n else text, if namesScope first e.decl.tag then true else printed, s') ∧ Kept d xs s s' := by
  obtain ⟨r, r1, r2, _⟩ := good_raw hok hs hg
  obtain ⟨s1, k1, k2⟩ := parentOf_spec hok hs hg hp
  obtain ⟨z, s2, k3, k4, k5, k6, _⟩ := inUnit_entry hok k2.1 ⟨hg.entry.1, (parent_all hp).1⟩ hg.isOpen
  obtain ⟨s3, k7, k8⟩ := hup z s2 k4 k6
  have k9 : Kept d xs s s3 := k2.trans (Kept.trans ⟨k4, k5⟩ k8)
  rw [buildName, getAttr_link hok hs hg (.inr rfl) hf, Res.bind_ok, hno.1]
  simp only [Option.map_none]
  rw [getAttr_link hok hs hg (.inl rfl) hf, Res.bind_ok, hno.2]
  simp only [Option.map_none]
  rw [r1, Res.bind_ok, r2, if_neg (by simpa [isUnitTag] using ht), k1, Res.bind_ok]
  simp only
  rw [k3, Res.bind_ok]
  simp only
  rw [k7, Res.bind_ok]
  simp only
  by_cases hsc : namesScope first e.decl.tag = true
  · obtain ⟨s4, j1, j2⟩ := dieName_spec hok hfit k9.1 (hg.ext k9.2) hno (hn hsc) hf
    refine ⟨s4, ?_, k9.trans j2⟩
    rw [if_pos hsc, if_pos hsc, if_pos hsc, j1, Res.bind_ok]
  · refine ⟨s3, ?_, k9⟩
    rw [if_neg hsc, if_neg hsc, if_neg hsc]

omit hok in
theorem intercalate_snoc (sep : List Byte) (l : List (List Byte)) (n : List Byte) : List.intercalate sep (l ++ [n]) = List.intercalate sep l ++ ((if l = [] then [] else sep) ++ n) := by
  induction l with
  | nil => simp [List.intercalate]
  | cons a l ih =>
    cases l with
    | nil => simp [List.intercalate]
    | cons b l =>
      have e1 : List.intercalate sep ((a :: b :: l) ++ [n]) = a ++ (sep ++ List.intercalate sep ((b :: l) ++ [n])) := by simp [List.intercalate, List.intersperse]
      have e2 : List.intercalate sep (a :: b :: l) = a ++ (sep ++ List.intercalate sep (b :: l)) := by simp [List.intercalate, List.intersperse]
      rw [e1, e2, ih]
      simp only [reduceCtorEq, if_false, List.append_assoc]

/-- The names of scopes. -/
def joined (l : List (Nat × List Byte)) : List Byte := List.intercalate [0x3a#8, 0x3a#8] ((withoutUnions l).map (·.2))

def someShown (l : List (Nat × List Byte)) : Bool := !(withoutUnions l).isEmpty

omit hok in
theorem qualify_joined (l : List (Nat × List Byte)) (n : List Byte) : qualify (joined l) (someShown l) n = qualified (withoutUnions l) n := by
  unfold qualify joined someShown qualified
  rw [intercalate_snoc]
  cases withoutUnions l <;> rfl

omit hok in
theorem joined_snoc (l : List (Nat × List Byte)) (t : Nat) (n : List Byte) (ht : t ≠ 0x17) : joined (l ++ [(t, n)]) = qualify (joined l) (someShown l) n ∧ someShown (l ++ [(t, n)]) = true := by
  have e : withoutUnions (l ++ [(t, n)]) = withoutUnions l ++ [(t, n)] := by
    unfold withoutUnions; rw [List.filter_append]; simp [ht]
  constructor
  · rw [qualify_joined]; unfold joined qualified; rw [e, List.map_append]; rfl
  · unfold someShown; rw [e]; simp

omit hok in
theorem joined_union (l : List (Nat × List Byte)) (n : List Byte) : joined (l ++ [(0x17, n)]) = joined l ∧ someShown (l ++ [(0x17, n)]) = someShown l := by
  have e : withoutUnions (l ++ [(0x17, n)]) = withoutUnions l := by
    unfold withoutUnions; rw [List.filter_append]; simp
  unfold joined someShown; rw [e]; exact ⟨rfl, rfl⟩

/-- The scopes of an entry. -/
theorem scopes_built (hfit : SectionsFit d) {uo : Nat} {x : DieUnit} {o : Nat} {e : DieEntry} {l : List (Nat × List Byte)} (h : Scopes d xs uo x o e l) :
    ∃ n, ∀ fuel depth, 1 ≤ fuel → n ≤ depth → ∀ y s, ISt d xs s → GoodDie d xs s y uo x o e →
      ∃ s', buildName d fuel depth (some y) false s = .ok (joined l, someShown l, s') ∧ Kept d xs s s' := by
  induction h with
  | @link uo x o e uo' x' o' e' l he hl _ ih =>
    obtain ⟨n, ih⟩ := ih
    refine ⟨n + 1, fun fuel depth h1 h2 y s hs hg => ?_⟩
    obtain ⟨m, rfl⟩ : ∃ m, depth = m + 1 := ⟨depth - 1, by omega⟩
    obtain ⟨z, s1, k1, k2, k3⟩ := buildName_link hok hs hg hl h1 m false
    obtain ⟨s', j1, j2⟩ := ih fuel m h1 (by omega) z s1 k2.1 k3
    exact ⟨s', k1.trans j1, k2.trans j2⟩
  | @unit uo x o e he hno ht =>
    refine ⟨1, fun fuel depth h1 h2 y s hs hg => ?_⟩
    obtain ⟨m, rfl⟩ : ∃ m, depth = m + 1 := ⟨depth - 1, by omega⟩
    exact ⟨s, buildName_unit hok hs hg hno ht h1 m false, Kept.refl hs⟩
  | @scope uo x o e po pe l nm hx hp hno ht hn _ ih =>
    obtain ⟨n, ih⟩ := ih
    refine ⟨n + 1, fun fuel depth h1 h2 y s hs hg => ?_⟩
    obtain ⟨m, rfl⟩ : ∃ m, depth = m + 1 := ⟨depth - 1, by omega⟩
    have hnu : isUnitTag e.decl.tag = false := by
      simp only [isScopeTag, Bool.or_eq_true, decide_eq_true_eq] at ht
      rcases ht with ((ht | ht) | ht) | ht <;> rw [ht] <;> rfl
    obtain ⟨s', k1, k2⟩ := buildName_up hok hfit hs hg hno hnu hp false (fun _ => hn) h1 (fun z s hs hg => ih fuel m h1 (by omega) z s hs hg)
    refine ⟨s', ?_, k2⟩
    rw [k1]
    by_cases h17 : e.decl.tag = 0x17
    · rw [h17, (joined_union l nm).1, (joined_union l nm).2]; rfl
    · have : namesScope false e.decl.tag = true := by
        simp only [isScopeTag, Bool.or_eq_true, decide_eq_true_eq] at ht
        rcases ht with ((ht | ht) | ht) | ht
        · rw [ht]; rfl
        · rw [ht]; rfl
        · exact absurd ht h17
        · rw [ht]; rfl
      rw [if_pos this, if_pos this, (joined_snoc l _ nm h17).1, (joined_snoc l _ nm h17).2]
  | @other uo x o e po pe l hx hp hno hnu ht _ ih =>
    obtain ⟨n, ih⟩ := ih
    refine ⟨n + 1, fun fuel depth h1 h2 y s hs hg => ?_⟩
    obtain ⟨m, rfl⟩ : ∃ m, depth = m + 1 := ⟨depth - 1, by omega⟩
    have hns : ¬namesScope false e.decl.tag = true := by
      intro hc
      simp only [namesScope, Bool.or_eq_true, beq_iff_eq, Bool.false_eq_true, false_or] at hc
      rcases hc with (hc | hc) | hc <;> rw [hc] at ht <;> cases ht
    obtain ⟨s', k1, k2⟩ := buildName_up hok hfit hs hg hno hnu hp (n := []) false (fun h => absurd h hns) h1 (fun z s hs hg => ih fuel m h1 (by omega) z s hs hg)
    rw [if_neg hns, if_neg hns] at k1
    exact ⟨s', k1, k2⟩

/-- The name of what an entry describes. -/
theorem declared_built (hfit : SectionsFit d) {uo : Nat} {x : DieUnit} {o : Nat} {e : DieEntry} {l : List (Nat × List Byte)} {nm : List Byte} (h : DeclaredAs d xs uo x o e l nm) :
    ∃ n, ∀ fuel depth, 1 ≤ fuel → n ≤ depth → ∀ y s, ISt d xs s → GoodDie d xs s y uo x o e →
      ∃ s', buildName d fuel depth (some y) true s = .ok (qualified (withoutUnions l) nm, true, s') ∧ Kept d xs s s' := by
  induction h with
  | @link uo x o e uo' x' o' e' l nm he hl _ ih =>
    obtain ⟨n, ih⟩ := ih
    refine ⟨n + 1, fun fuel depth h1 h2 y s hs hg => ?_⟩
    obtain ⟨m, rfl⟩ : ∃ m, depth = m + 1 := ⟨depth - 1, by omega⟩
    obtain ⟨z, s1, k1, k2, k3⟩ := buildName_link hok hs hg hl h1 m true
    obtain ⟨s', j1, j2⟩ := ih fuel m h1 (by omega) z s1 k2.1 k3
    exact ⟨s', k1.trans j1, k2.trans j2⟩
  | @here uo x o e po pe l nm hx hp hno hnu hn hsc =>
    obtain ⟨n, ih⟩ := scopes_built hok hfit hsc
    refine ⟨n + 1, fun fuel depth h1 h2 y s hs hg => ?_⟩
    obtain ⟨m, rfl⟩ : ∃ m, depth = m + 1 := ⟨depth - 1, by omega⟩
    obtain ⟨s', k1, k2⟩ := buildName_up hok hfit hs hg hno hnu hp true (fun _ => hn) h1 (fun z s hs hg => ih fuel m h1 (by omega) z s hs hg)
    refine ⟨s', ?_, k2⟩
    rw [k1, ← qualify_joined]; rfl

/-! ### Offsets -/

theorem dieRanges_list (hfit : SectionsFit d) (hrefs : RefsOk xs) {s : IState} (hs : ISt d xs s) (hr : RangesRight d xs s) {y : DIE} {uo : Nat} {x : DieUnit} {o : Nat} {e : DieEntry}
    (hg : GoodDie d xs s y uo x o e) {L : List (Nat × Nat)} (hL : EntryRanges d xs uo x o e L) {fuel : Nat} (hf : 1 ≤ fuel) {s1 : IState} (h1 : getAttr d fuel y 0x11 false s = .ok (none, s1)) :
    ∃ s', dieRanges d fuel y s = .ok (some L, s') := by
  have hL' := hL
  obtain ⟨i, n, base, f1, _⟩ := hL
  have g2 := (getAttr_keep hok hrefs hs ⟨uo, x, o, e, hg⟩ h1).1
  have g3 : numOr0 d fuel none s1 = .ok (0, s1) := rfl
  have hb := base_arg hok hfit g2.1 (hg.ext g2.2) (low_inherited hok hfit hrefs hs hg hf h1) hf g3
  obtain ⟨s', k⟩ := unitRanges_spec hok hfit g2.1 (hr.of_eq g2.2.2) (hg.ext g2.2) hL' hb (fuel := fuel) hf
  refine ⟨s', ?_⟩
  unfold dieRanges
  rw [getAttr_own hok hs hg f1 hf false, Res.bind_ok]
  simp only
  rw [h1, Res.bind_ok]
  simp only
  rw [g3, Res.bind_ok]
  simp only
  rw [k, Res.bind_ok]

theorem offset_starts (hfit : SectionsFit d) (hrefs : RefsOk xs) {uo : Nat} {x : DieUnit} {o : Nat} {e : DieEntry} {start : Nat} (h : StartsAt d xs uo x o e start) :
    ∃ n, ∀ fuel, n ≤ fuel → ∀ y s (addr : BitVec 64), ISt d xs s → RangesRight d xs s → GoodDie d xs s y uo x o e →
      ∃ s', offsetIn d fuel y addr s = .ok (addr - BitVec.ofNat 64 start, s') ∧ KeptR d xs s s' ∧ RangesRight d xs s' := by
  cases h with
  | @low uo' x' o' e' i _ hi hn =>
    obtain ⟨a, v, q1, q2, q3⟩ := hn
    obtain ⟨m, hm⟩ := getAttr_inherits hok (d := d) (by decide) hi
    refine ⟨m + 1, fun fuel hf y s addr hs hr hg => ?_⟩
    obtain ⟨a', s1, g1, g2, g3, z, rfl, g4, _⟩ := hm fuel y x s (by omega) hs hg
    obtain ⟨w, s2, k1, k2, k3, _⟩ := toNum_spec hok hfit g2 g4 q1 q2 q3 (fuel := fuel) (by omega)
    have hw : BitVec.ofNat 64 start = w := by rw [← k2, BitVec.ofNat_toNat, BitVec.setWidth_eq]
    refine ⟨s2, ?_, (Kept.trans ⟨g2, g3⟩ k3).toR, (hr.of_eq g3.2).of_eq k3.2.2⟩
    unfold offsetIn
    rw [g1, Res.bind_ok]
    simp only
    rw [k1, Res.bind_ok, hw]
  | @range _ b l hi hL =>
    obtain ⟨m, hm⟩ := getAttr_inherits hok (d := d) (by decide) hi
    refine ⟨m + 1, fun fuel hf y s addr hs hr hg => ?_⟩
    obtain ⟨a', s1, g1, g2, g3, g4⟩ := hm fuel y x s (by omega) hs hg
    have g4 : a' = none := g4
    subst g4
    have hg1 := hg.ext g3
    have hr1 := hr.of_eq g3.2
    obtain ⟨a'', s2, j1, j2, j3, j4⟩ := hm fuel y x s1 (by omega) g2 hg1
    have j4 : a'' = none := j4
    subst j4
    obtain ⟨s3, k1⟩ := dieRanges_list hok hfit hrefs g2 hr1 hg1 hL (by omega) j1
    refine ⟨s3, ?_, KeptR.trans ⟨g2, g3.1⟩ (dieRanges_keep hok hrefs g2 ⟨_, _, _, _, hg1⟩ k1), dieRanges_right hok hfit hrefs g2 hr1 hg1 k1⟩
    unfold offsetIn
    rw [g1, Res.bind_ok]
    simp only
    rw [k1, Res.bind_ok]
    rfl

theorem offset_unknown (hrefs : RefsOk xs) {uo : Nat} {x : DieUnit} {o : Nat} {e : DieEntry} (h : NoStart xs uo o e) :
    ∃ n, ∀ fuel, n ≤ fuel → ∀ y s (addr : BitVec 64), ISt d xs s → RangesRight d xs s → GoodDie d xs s y uo x o e →
      ∃ s', offsetIn d fuel y addr s = .ok (BitVec.allOnes 64, s') ∧ KeptR d xs s s' ∧ RangesRight d xs s' := by
  obtain ⟨m, hm⟩ := getAttr_inherits hok (d := d) (by decide) h.1
  obtain ⟨m', hm'⟩ := getAttr_inherits hok (d := d) (by decide) h.2
  refine ⟨m + m', fun fuel hf y s addr hs hr hg => ?_⟩
  obtain ⟨a', s1, g1, g2, g3, g4⟩ := hm fuel y x s (by omega) hs hg
  have g4 : a' = none := g4
  subst g4
  obtain ⟨a'', s2, j1, j2, j3, j4⟩ := hm' fuel y x s1 (by omega) g2 (hg.ext g3)
  have j4 : a'' = none := j4
  subst j4
  refine ⟨s2, ?_, (Kept.trans ⟨g2, g3⟩ ⟨j2, j3⟩).toR, (hr.of_eq g3.2).of_eq j3.2⟩
  unfold offsetIn
  rw [g1, Res.bind_ok]
  simp only
  unfold dieRanges
  rw [j1, Res.bind_ok]
  rfl

/-- A frame: its name, offset and inlined functions, when the offset in the function is given by `offsetIn`. -/
theorem frame_good (hfit : SectionsFit d) (hrefs : RefsOk xs) {uo : Nat} {x : DieUnit} {o : Nat} {e : DieEntry} {l : List (Nat × List Byte)} {nm : List Byte} (hd : DeclaredAs d xs uo x o e l nm)
    {F : Forest (Nat × DieEntry)} {addr : BitVec 64} (hF : (x.placed uo).KidsOf (o, e) F) (ht : ∀ b ∈ (o, e) :: F.all, Told d xs uo x addr.toNat b) {w : BitVec 64}
    (hoff : ∃ n, ∀ fuel, n ≤ fuel → ∀ y s, ISt d xs s → RangesRight d xs s → GoodDie d xs s y uo x o e →
      ∃ s', offsetIn d fuel y addr s = .ok (w, s') ∧ KeptR d xs s s' ∧ RangesRight d xs s') :
    ∃ n, ∀ fuel depth rounds, n ≤ fuel → n ≤ depth → F.all.length < rounds → ∀ y s sym, ISt d xs s → RangesRight d xs s → GoodDie d xs s y uo x o e →
      ∃ zs l' s', printableFrame d fuel depth rounds (some y) sym addr s = .ok ((qualified (withoutUnions l) nm, orSymbol sym addr w, zs), s') ∧
        GoodDies d xs s' uo x zs l' ∧ InlineChain d xs uo x addr.toNat (o, e) F l' ∧ KeptR d xs s s' ∧ RangesRight d xs s' := by
  obtain ⟨n1, h1⟩ := declared_built hok hfit hd
  obtain ⟨n2, h2⟩ := hoff
  obtain ⟨n3, h3⟩ := told_all hok hfit hrefs _ ht
  refine ⟨n1 + n2 + n3 + searchCost F + 1, fun fuel depth rounds hf hdp hro y s sym hs hr hg => ?_⟩
  obtain ⟨s1, k1, k2⟩ := h1 fuel depth (by omega) (by omega) y s hs hg
  obtain ⟨s2, k3, k4, k5⟩ := h2 fuel (by omega) y s1 k2.1 (hr.of_eq k2.2.2) (hg.ext k2.2)
  obtain ⟨zs, l', s3, k6, k7, k8, k9, k10⟩ := inlined_good hok hfit hrefs hg.entry.1 rounds (o, e) F (by omega) hF ht (h3 fuel (by omega)) (depth := depth) (by omega) y s2 k4.1 k5
    ((hg.ext k2.2).extR k4.2)
  refine ⟨zs, l', s3, ?_, k7, k8, k2.toR.trans (k4.trans k9), k10⟩
  unfold printableFrame qualifiedName
  simp only
  rw [k1, Res.bind_ok]
  simp only [Res.bind_ok]
  rw [k3, Res.bind_ok]
  simp only
  rw [k6, Res.bind_ok]

theorem frame_built (hfit : SectionsFit d) (hrefs : RefsOk xs) {uo : Nat} {x : DieUnit} {o : Nat} {e : DieEntry} {l : List (Nat × List Byte)} {nm : List Byte} (hd : DeclaredAs d xs uo x o e l nm)
    {F : Forest (Nat × DieEntry)} {addr : BitVec 64} (hF : (x.placed uo).KidsOf (o, e) F) (ht : ∀ b ∈ (o, e) :: F.all, Told d xs uo x addr.toNat b) {w : BitVec 64}
    (hoff : ∃ n, ∀ fuel, n ≤ fuel → ∀ y s, ISt d xs s → RangesRight d xs s → GoodDie d xs s y uo x o e →
      ∃ s', offsetIn d fuel y addr s = .ok (w, s') ∧ KeptR d xs s s' ∧ RangesRight d xs s') :
    ∃ n, ∀ fuel depth, n ≤ fuel → n ≤ depth → ∀ y s sym, ISt d xs s → RangesRight d xs s → GoodDie d xs s y uo x o e →
      ∃ zs l' s', printableFrame d fuel depth (F.all.length + 1) (some y) sym addr s = .ok ((qualified (withoutUnions l) nm, orSymbol sym addr w, zs), s') ∧
        AreEntries d xs uo x zs l' ∧ InlineChain d xs uo x addr.toNat (o, e) F l' := by
  obtain ⟨n, hn⟩ := frame_good hok hfit hrefs hd hF ht hoff
  refine ⟨n, fun fuel depth hf hdp y s sym hs hr hg => ?_⟩
  obtain ⟨zs, l', s', k1, k2, k3, _⟩ := hn fuel depth (F.all.length + 1) hf hdp (by omega) y s sym hs hr hg
  exact ⟨zs, l', s', k1, k2.entries, k3⟩

end

end Pstack.Props
