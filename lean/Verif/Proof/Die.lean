import Verif.Model.Die
/-
The walk over the entries of a unit and its cache.
-/
namespace Pstack.Props
open Pstack.Die

/-- A decoded entry with its place: where it is, where its values end, what its sibling attribute says (0: nothing). -/
structure Ent where
  off : Nat
  type : Abbrev
  values : List Value
  sib : Nat
  after : Nat

/-- Entries next to each other, with their children, up to the terminator. -/
inductive PF
  | done (pos stop : Nat)
  | leaf (e : Ent) (rest : PF)
  | node (e : Ent) (kids rest : PF)

namespace PF

def pos : PF → Nat
  | done p _ => p
  | leaf e _ => e.off
  | node e _ _ => e.off

def stopOf : PF → Nat
  | done _ s => s
  | leaf _ r => r.stopOf
  | node _ _ r => r.stopOf

def isEntry : PF → Bool
  | done _ _ => false
  | _ => true

def sz : PF → Nat
  | done _ _ => 1
  | leaf _ r => 2 + r.sz
  | node _ k r => 2 + k.sz + r.sz

/-- All the places in it, each with the offset of the entry around it. -/
def occs : Nat → PF → List (Nat × PF)
  | par, done p s => [(par, done p s)]
  | par, leaf e r => (par, leaf e r) :: occs par r
  | par, node e k r => (par, node e k r) :: (occs e.off k ++ occs par r)

/-- What follows an entry among its siblings. -/
def next : PF → PF
  | done p s => done p s
  | leaf _ r => r
  | node _ _ r => r

end PF

def InUnit (u : Die.Unit) (o : Nat) : Prop := o ≠ 0 ∧ u.offset ≤ o ∧ o < u.stop

/-- The section has these entries there. -/
def Laid (u : Die.Unit) : PF → Prop
  | .done p s => InUnit u p ∧ p < s ∧ scan u p = .ok (.terminator s)
  | .leaf e r => InUnit u e.off ∧ e.off < e.after ∧ scan u e.off = .ok (.entry e.type e.values e.sib e.after) ∧ e.type.hasChildren = false ∧
      r.pos = e.after ∧ Laid u r
  | .node e k r => InUnit u e.off ∧ e.off < e.after ∧ scan u e.off = .ok (.entry e.type e.values e.sib e.after) ∧ e.type.hasChildren = true ∧
      k.pos = e.after ∧ Laid u k ∧ (e.sib = 0 ∨ e.sib = k.stopOf) ∧ r.pos = k.stopOf ∧ Laid u r

theorem laid_pos_lt {u : Die.Unit} {f : PF} (h : Laid u f) : f.pos < f.stopOf := by
  induction f with
  | done p s => exact h.2.1
  | leaf e r ih =>
    obtain ⟨_, h1, _, _, h2, h3⟩ := h
    have := ih h3
    show e.off < r.stopOf
    omega
  | node e k r ihk ihr =>
    obtain ⟨_, h1, _, _, h2, h3, _, h5, h6⟩ := h
    have := ihr h6
    have := ihk h3
    show e.off < r.stopOf
    omega

theorem laid_inUnit {u : Die.Unit} {f : PF} (h : Laid u f) : InUnit u f.pos := by
  cases f with
  | done p s => exact h.1
  | leaf e r => exact h.1
  | node e k r => exact h.1

theorem occs_self (par : Nat) (f : PF) : (par, f) ∈ f.occs par := by
  cases f <;> simp [PF.occs]

theorem occs_laid {u : Die.Unit} {f : PF} : ∀ {par : Nat}, Laid u f → ∀ q g, (q, g) ∈ f.occs par → Laid u g := by
  induction f with
  | done p s =>
    intro par h q g hm
    simp [PF.occs] at hm; rw [hm.2]; exact h
  | leaf e r ih =>
    intro par h q g hm
    rcases List.mem_cons.1 hm with hm | hm
    · injection hm with _ hm; rw [hm]; exact h
    · exact ih h.2.2.2.2.2 q g hm
  | node e k r ihk ihr =>
    intro par h q g hm
    rcases List.mem_cons.1 hm with hm | hm
    · injection hm with _ hm; rw [hm]; exact h
    · rcases List.mem_append.1 hm with hm | hm
      · exact ihk h.2.2.2.2.2.1 q g hm
      · exact ihr h.2.2.2.2.2.2.2.2 q g hm

theorem occs_range {u : Die.Unit} {f : PF} : ∀ {par : Nat}, Laid u f → ∀ q g, (q, g) ∈ f.occs par → f.pos ≤ g.pos ∧ g.pos < f.stopOf := by
  induction f with
  | done p s =>
    intro par h q g hm
    simp [PF.occs] at hm; rw [hm.2]; exact ⟨Nat.le_refl _, h.2.1⟩
  | leaf e r ih =>
    intro par h q g hm
    have hlt := laid_pos_lt h
    rcases List.mem_cons.1 hm with hm | hm
    · injection hm with _ hm; rw [hm]; exact ⟨Nat.le_refl _, hlt⟩
    · have := ih h.2.2.2.2.2 q g hm
      have h1 := h.2.1
      have h2 := h.2.2.2.2.1
      show e.off ≤ g.pos ∧ g.pos < r.stopOf
      omega
  | node e k r ihk ihr =>
    intro par h q g hm
    have hlt := laid_pos_lt h
    obtain ⟨_, h1, _, _, h2, h3, _, h5, h6⟩ := h
    have hr := laid_pos_lt h6
    have hk := laid_pos_lt h3
    rcases List.mem_cons.1 hm with hm | hm
    · injection hm with _ hm; rw [hm]; exact ⟨Nat.le_refl _, hlt⟩
    · show e.off ≤ g.pos ∧ g.pos < r.stopOf
      rcases List.mem_append.1 hm with hm | hm
      · have := ihk h3 q g hm; omega
      · have := ihr h6 q g hm; omega

/-- Every place is there once. -/
theorem occs_inj {u : Die.Unit} {f : PF} : ∀ {par : Nat}, Laid u f → ∀ q g q' g', (q, g) ∈ f.occs par → (q', g') ∈ f.occs par → g.pos = g'.pos →
    q = q' ∧ g = g' := by
  induction f with
  | done p s =>
    intro par h q g q' g' hm hm' _
    simp [PF.occs] at hm hm'
    exact ⟨by rw [hm.1, hm'.1], by rw [hm.2, hm'.2]⟩
  | leaf e r ih =>
    intro par h q g q' g' hm hm' he
    have h1 := h.2.1
    have h2 := h.2.2.2.2.1
    rcases List.mem_cons.1 hm with hm | hm <;> rcases List.mem_cons.1 hm' with hm' | hm'
    · injection hm with a b; injection hm' with a' b'; exact ⟨by rw [a, a'], by rw [b, b']⟩
    · injection hm with a b
      have := (occs_range h.2.2.2.2.2 _ _ hm').1
      rw [b] at he
      have he' : e.off = g'.pos := he
      omega
    · injection hm' with a b
      have := (occs_range h.2.2.2.2.2 _ _ hm).1
      rw [b] at he
      have he' : g.pos = e.off := he
      omega
    · exact ih h.2.2.2.2.2 _ _ _ _ hm hm' he
  | node e k r ihk ihr =>
    intro par h q g q' g' hm hm' he
    obtain ⟨_, h1, _, _, h2, h3, _, h5, h6⟩ := h
    have hr := laid_pos_lt h6
    have hk := laid_pos_lt h3
    have lo : ∀ q g, (q, g) ∈ PF.occs e.off k ++ PF.occs par r → e.off < g.pos := by
      intro q g hm
      rcases List.mem_append.1 hm with hm | hm
      · have := occs_range h3 _ _ hm; omega
      · have := occs_range h6 _ _ hm; omega
    rcases List.mem_cons.1 hm with hm | hm <;> rcases List.mem_cons.1 hm' with hm' | hm'
    · injection hm with a b; injection hm' with a' b'; exact ⟨by rw [a, a'], by rw [b, b']⟩
    · injection hm with a b
      have := lo _ _ hm'
      rw [b] at he
      have he' : e.off = g'.pos := he
      omega
    · injection hm' with a b
      have := lo _ _ hm
      rw [b] at he
      have he' : g.pos = e.off := he
      omega
    · rcases List.mem_append.1 hm with hm | hm <;> rcases List.mem_append.1 hm' with hm' | hm'
      · exact ihk h3 _ _ _ _ hm hm' he
      · have := occs_range h3 _ _ hm; have := occs_range h6 _ _ hm'; omega
      · have := occs_range h6 _ _ hm; have := occs_range h3 _ _ hm'; omega
      · exact ihr h6 _ _ _ _ hm hm' he

theorem occs_next {f : PF} : ∀ {par q : Nat} {g : PF}, (q, g) ∈ f.occs par → (q, g.next) ∈ f.occs par := by
  induction f with
  | done p s =>
    intro par q g hm
    simp [PF.occs] at hm ⊢
    rw [hm.2]; exact ⟨hm.1, rfl⟩
  | leaf e r ih =>
    intro par q g hm
    rcases List.mem_cons.1 hm with hm | hm
    · injection hm with a b; rw [a, b]; exact List.mem_cons_of_mem _ (occs_self par r)
    · exact List.mem_cons_of_mem _ (ih hm)
  | node e k r ihk ihr =>
    intro par q g hm
    rcases List.mem_cons.1 hm with hm | hm
    · injection hm with a b; rw [a, b]; exact List.mem_cons_of_mem _ (List.mem_append_right _ (occs_self par r))
    · rcases List.mem_append.1 hm with hm | hm
      · exact List.mem_cons_of_mem _ (List.mem_append_left _ (ihk hm))
      · exact List.mem_cons_of_mem _ (List.mem_append_right _ (ihr hm))

theorem occs_kids {f : PF} : ∀ {par q : Nat} {e : Ent} {k r : PF}, (q, .node e k r) ∈ f.occs par → (e.off, k) ∈ f.occs par := by
  induction f with
  | done p s =>
    intro par q e k r hm
    simp [PF.occs] at hm
  | leaf e' r' ih =>
    intro par q e k r hm
    rcases List.mem_cons.1 hm with hm | hm
    · injection hm with a b; cases b
    · exact List.mem_cons_of_mem _ (ih hm)
  | node e' k' r' ihk ihr =>
    intro par q e k r hm
    rcases List.mem_cons.1 hm with hm | hm
    · injection hm with a b
      injection b with b1 b2 b3
      rw [b1, b2]
      exact List.mem_cons_of_mem _ (List.mem_append_left _ (occs_self _ _))
    · rcases List.mem_append.1 hm with hm | hm
      · exact List.mem_cons_of_mem _ (List.mem_append_left _ (ihk hm))
      · exact List.mem_cons_of_mem _ (List.mem_append_right _ (ihr hm))

/-- The entry around a place. -/
theorem occs_parent {f : PF} : ∀ {par q : Nat} {g : PF}, (q, g) ∈ f.occs par →
    (q = par ∧ g.stopOf = f.stopOf) ∨ ∃ q' e k r, (q', PF.node e k r) ∈ f.occs par ∧ e.off = q ∧ g.stopOf = k.stopOf := by
  induction f with
  | done p s =>
    intro par q g hm
    simp [PF.occs] at hm
    exact .inl ⟨hm.1, by rw [hm.2]⟩
  | leaf e' r' ih =>
    intro par q g hm
    rcases List.mem_cons.1 hm with hm | hm
    · injection hm with a b; exact .inl ⟨a, by rw [b]⟩
    · rcases ih hm with h | ⟨q', e, k, r, h1, h2, h3⟩
      · exact .inl h
      · exact .inr ⟨q', e, k, r, List.mem_cons_of_mem _ h1, h2, h3⟩
  | node e' k' r' ihk ihr =>
    intro par q g hm
    rcases List.mem_cons.1 hm with hm | hm
    · injection hm with a b; exact .inl ⟨a, by rw [b]⟩
    · rcases List.mem_append.1 hm with hm | hm
      · rcases ihk hm with ⟨h1, h2⟩ | ⟨q', e, k, r, h1, h2, h3⟩
        · exact .inr ⟨par, e', k', r', List.mem_cons_self, h1.symm, h2⟩
        · exact .inr ⟨q', e, k, r, List.mem_cons_of_mem _ (List.mem_append_left _ h1), h2, h3⟩
      · rcases ihr hm with h | ⟨q', e, k, r, h1, h2, h3⟩
        · exact .inl h
        · exact .inr ⟨q', e, k, r, List.mem_cons_of_mem _ (List.mem_append_right _ h1), h2, h3⟩

/-! ### The unit -/

/-- The entry at the root, and what is below it. -/
structure Tree where
  root : Ent
  kids : Option PF

/-- The section has this tree. -/
def LaidTree (u : Die.Unit) (t : Tree) : Prop :=
  t.root.off = u.rootOffset ∧ InUnit u t.root.off ∧ t.root.off < t.root.after ∧
  scan u t.root.off = .ok (.entry t.root.type t.root.values t.root.sib t.root.after) ∧
  (match t.kids with
   | none => t.root.type.hasChildren = false
   | some k => t.root.type.hasChildren = true ∧ k.pos = t.root.after ∧ Laid u k)

/-- The places below the root. -/
def Tree.occs (t : Tree) : List (Nat × PF) :=
  match t.kids with
  | none => []
  | some k => k.occs t.root.off

/-- `x` is the last of the children of the entry at `par`. -/
def LastOf (t : Tree) (par x : Nat) : Prop := ∃ g, (par, g) ∈ t.occs ∧ g.isEntry = true ∧ g.pos = x ∧ g.next.isEntry = false

/-- A decoded entry says what the section says, apart from what is not known yet. -/
def CellOk (par : Nat) (g : PF) (r : Raw) : Prop :=
  match g with
  | .done _ _ => False
  | .leaf e _ => r.type = e.type ∧ r.values = e.values ∧ (r.parent = 0 ∨ r.parent = par) ∧ r.firstChild = 0 ∧ (r.nextSibling = 0 ∨ r.nextSibling = e.after)
  | .node e k _ => r.type = e.type ∧ r.values = e.values ∧ (r.parent = 0 ∨ r.parent = par) ∧ r.firstChild = e.after ∧
      (r.nextSibling = 0 ∨ r.nextSibling = k.stopOf)

def RootOk (t : Tree) (r : Raw) : Prop :=
  r.type = t.root.type ∧ r.values = t.root.values ∧ r.parent = 0 ∧ r.firstChild = (match t.kids with | none => 0 | some _ => t.root.after)

/-- Is there a decoded entry for the offset. -/
def Has (s : State) (o : Nat) : Prop := ∃ r, s.cell s.epoch o = some r

/-- `D` is a set of entries known to be the last of their siblings. -/
structure DieInv (t : Tree) (s : State) (D : Nat → Prop) : Prop where
  future : ∀ e o, s.epoch < e → s.cell e o = none
  cells : ∀ o r, s.cell s.epoch o = some r → (o = t.root.off ∧ RootOk t r) ∨ ∃ par g, (par, g) ∈ t.occs ∧ g.pos = o ∧ CellOk par g r
  leafD : ∀ par e rest r, (par, PF.leaf e rest) ∈ t.occs → s.cell s.epoch e.off = some r → r.nextSibling = 0 → D e.off
  nodeD : ∀ par e k rest r x, (par, PF.node e k rest) ∈ t.occs → s.cell s.epoch e.off = some r → r.nextSibling = 0 → LastOf t e.off x → D x → D e.off
  sound : ∀ x, D x → ∃ par, LastOf t par x ∧ Has s par

/-- Nothing decoded is lost, and no parent that is known. -/
def Ext (s s' : State) : Prop :=
  s'.epoch = s.epoch ∧ ∀ o r, s.cell s.epoch o = some r → ∃ r', s'.cell s'.epoch o = some r' ∧ (r.parent ≠ 0 → r'.parent ≠ 0)

theorem Ext.has {s s' : State} (h : Ext s s') {o : Nat} (hh : Has s o) : Has s' o := by
  obtain ⟨r, hr⟩ := hh
  obtain ⟨r', hr', _⟩ := h.2 o r hr
  exact ⟨r', hr'⟩

theorem Ext.refl (s : State) : Ext s s := ⟨rfl, fun _ r h => ⟨r, h, id⟩⟩

theorem Ext.trans {a b c : State} (h1 : Ext a b) (h2 : Ext b c) : Ext a c := by
  refine ⟨h2.1.trans h1.1, ?_⟩
  intro o r hr
  obtain ⟨r', hr', g1⟩ := h1.2 o r hr
  obtain ⟨r'', hr'', g2⟩ := h2.2 o r' hr'
  exact ⟨r'', hr'', fun h => g2 (g1 h)⟩

section
variable {u : Die.Unit} {t : Tree} (ht : LaidTree u t)
include ht

theorem tree_inj {q q' : Nat} {g g' : PF} (h : (q, g) ∈ t.occs) (h' : (q', g') ∈ t.occs) (he : g.pos = g'.pos) : q = q' ∧ g = g' := by
  obtain ⟨r, k⟩ := t
  cases k with
  | none => cases h
  | some k => exact occs_inj ht.2.2.2.2.2.2 _ _ _ _ h h' he

theorem tree_laid {q : Nat} {g : PF} (h : (q, g) ∈ t.occs) : Laid u g := by
  obtain ⟨r, k⟩ := t
  cases k with
  | none => cases h
  | some k => exact occs_laid ht.2.2.2.2.2.2 _ _ h

theorem tree_root_lt {q : Nat} {g : PF} (h : (q, g) ∈ t.occs) : t.root.off < g.pos := by
  obtain ⟨r, k⟩ := t
  cases k with
  | none => cases h
  | some k =>
    have := (occs_range ht.2.2.2.2.2.2 _ _ h).1
    have h1 := ht.2.2.1
    have h2 := ht.2.2.2.2.2.1
    show r.off < g.pos
    have h1' : r.off < r.after := h1
    have h2' : k.pos = r.after := h2
    omega

omit ht in
theorem tree_next {q : Nat} {g : PF} (h : (q, g) ∈ t.occs) : (q, g.next) ∈ t.occs := by
  obtain ⟨r, k⟩ := t
  cases k with
  | none => cases h
  | some k => exact occs_next h

omit ht in
theorem tree_kids {q : Nat} {e : Ent} {k r : PF} (h : (q, .node e k r) ∈ t.occs) : (e.off, k) ∈ t.occs := by
  obtain ⟨r, k⟩ := t
  cases k with
  | none => cases h
  | some k => exact occs_kids h

omit ht in
theorem tree_parent {q : Nat} {g : PF} (h : (q, g) ∈ t.occs) :
    q = t.root.off ∨ ∃ q' e k r, (q', PF.node e k r) ∈ t.occs ∧ e.off = q ∧ g.stopOf = k.stopOf := by
  obtain ⟨r, k⟩ := t
  cases k with
  | none => cases h
  | some k =>
    rcases occs_parent h with ⟨h, _⟩ | h
    · exact .inl h
    · exact .inr h

end

/-! ### Changing one decoded entry -/

theorem get_cur (s : State) (o : Nat) : s.get ⟨s.epoch, o⟩ = s.cell s.epoch o := rfl

theorem cell_set (s : State) (o : Nat) (r : Raw) (o' : Nat) :
    (s.set ⟨s.epoch, o⟩ r).cell s.epoch o' = if o' = o then some r else s.cell s.epoch o' := by
  show (if s.epoch = s.epoch ∧ o' = o then _ else _) = _
  simp

theorem modify_eq (s : State) (o : Nat) (f : Raw → Raw) {r : Raw} (h : s.cell s.epoch o = some r) :
    s.modify ⟨s.epoch, o⟩ f = s.set ⟨s.epoch, o⟩ (f r) := by
  unfold State.modify
  rw [get_cur, h]

theorem future_set (s : State) (o : Nat) (r : Raw) (h : ∀ e o, s.epoch < e → s.cell e o = none) :
    ∀ e o', s.epoch < e → (s.set ⟨s.epoch, o⟩ r).cell e o' = none := by
  intro e o' he
  show (if e = s.epoch ∧ o' = o then _ else _) = _
  rw [if_neg (by omega)]
  exact h e o' he

theorem ext_set (s : State) (o : Nat) (r : Raw) (hp : ∀ r0, s.cell s.epoch o = some r0 → r0.parent ≠ 0 → r.parent ≠ 0) :
    Ext s (s.set ⟨s.epoch, o⟩ r) := by
  refine ⟨rfl, ?_⟩
  intro o' r' hr'
  show ∃ r'', (s.set ⟨s.epoch, o⟩ r).cell s.epoch o' = some r'' ∧ _
  rw [cell_set]
  by_cases h : o' = o
  · rw [if_pos h]; rw [h] at hr'; exact ⟨_, rfl, hp r' hr'⟩
  · rw [if_neg h]; exact ⟨_, hr', id⟩

theorem has_set' (s : State) (o : Nat) (r : Raw) (o' : Nat) (h : Has s o') : Has (s.set ⟨s.epoch, o⟩ r) o' := by
  obtain ⟨r', hr'⟩ := h
  show ∃ r'', (s.set ⟨s.epoch, o⟩ r).cell s.epoch o' = some r''
  rw [cell_set]
  by_cases h : o' = o
  · rw [if_pos h]; exact ⟨_, rfl⟩
  · rw [if_neg h]; exact ⟨_, hr'⟩

theorem has_set (s : State) (o : Nat) (r : Raw) : Has (s.set ⟨s.epoch, o⟩ r) o := by
  show ∃ r'', (s.set ⟨s.epoch, o⟩ r).cell s.epoch o = some r''
  rw [cell_set, if_pos rfl]; exact ⟨_, rfl⟩

theorem inv_set {t : Tree} {s : State} {D : Nat → Prop} (h : DieInv t s D) (o : Nat) (r : Raw)
    (hok : (o = t.root.off ∧ RootOk t r) ∨ ∃ par g, (par, g) ∈ t.occs ∧ g.pos = o ∧ CellOk par g r)
    (hl : ∀ par e rest, (par, PF.leaf e rest) ∈ t.occs → e.off = o → r.nextSibling = 0 → D o)
    (hn : ∀ par e k rest x, (par, PF.node e k rest) ∈ t.occs → e.off = o → r.nextSibling = 0 → LastOf t o x → D x → D o) :
    DieInv t (s.set ⟨s.epoch, o⟩ r) D := by
  refine ⟨future_set s o r h.future, ?_, ?_, ?_, ?_⟩
  · intro o' r' hr'
    rw [show (s.set ⟨s.epoch, o⟩ r).epoch = s.epoch from rfl, cell_set] at hr'
    by_cases he : o' = o
    · rw [if_pos he] at hr'; injection hr' with hr'; rw [← hr', he]; exact hok
    · rw [if_neg he] at hr'; exact h.cells o' r' hr'
  · intro par e rest r' hm hr' h0
    rw [show (s.set ⟨s.epoch, o⟩ r).epoch = s.epoch from rfl, cell_set] at hr'
    by_cases he : e.off = o
    · rw [if_pos he] at hr'; injection hr' with hr'; rw [he]; exact hl par e rest hm he (by rw [hr']; exact h0)
    · rw [if_neg he] at hr'; exact h.leafD par e rest r' hm hr' h0
  · intro par e k rest r' x hm hr' h0 hx hd
    rw [show (s.set ⟨s.epoch, o⟩ r).epoch = s.epoch from rfl, cell_set] at hr'
    by_cases he : e.off = o
    · rw [if_pos he] at hr'; injection hr' with hr'; rw [he]
      exact hn par e k rest x hm he (by rw [hr']; exact h0) (by rw [← he]; exact hx) hd
    · rw [if_neg he] at hr'; exact h.nodeD par e k rest r' x hm hr' h0 hx hd
  · intro x hx
    obtain ⟨par, h1, h2⟩ := h.sound x hx
    exact ⟨par, h1, has_set' s o r par h2⟩

section
variable {u : Die.Unit} {t : Tree} (ht : LaidTree u t)
include ht

/-- What the cell of an entry below the root says. -/
theorem cell_at {s : State} {D : Nat → Prop} (h : DieInv t s D) {par : Nat} {g : PF} (hm : (par, g) ∈ t.occs) {r : Raw}
    (hr : s.cell s.epoch g.pos = some r) : CellOk par g r := by
  rcases h.cells _ _ hr with ⟨h1, _⟩ | ⟨par', g', h1, h2, h3⟩
  · have := tree_root_lt ht hm; omega
  · obtain ⟨e1, e2⟩ := tree_inj ht h1 hm h2
    rw [← e1, ← e2]; exact h3

theorem laid_scan {par : Nat} {g : PF} (hm : (par, g) ∈ t.occs) : InUnit u g.pos := laid_inUnit (tree_laid ht hm)

omit ht in
theorem offset_hit {p : Option Handle} {o : Nat} {s : State} {r : Raw} (h : InUnit u o) (hc : s.cell s.epoch o = some r) :
    offsetToDIE u p o s = .ok (some ⟨s.epoch, o⟩, s) := by
  unfold offsetToDIE
  obtain ⟨h1, h2, h3⟩ := h
  rw [if_neg (by omega), hc]

omit ht in
theorem offset_miss {p : Option Handle} {o : Nat} {s : State} {f : Found} (h : InUnit u o) (hc : s.cell s.epoch o = none) (hf : scan u o = .ok f) :
    offsetToDIE u p o s = .ok (decode p o s f) := by
  unfold offsetToDIE
  obtain ⟨h1, h2, h3⟩ := h
  rw [if_neg (by omega), hc]
  simp only
  rw [hf, Res.bind_ok]

/-- Going to the terminator of the children of an entry: its end is noted. -/
theorem goto_done {s : State} {D : Nat → Prop} (h : DieInv t s D) {par p stop : Nat} (hm : (par, PF.done p stop) ∈ t.occs) (hp : Has s par) :
    ∃ s', offsetToDIE u (some ⟨s.epoch, par⟩) p s = .ok (none, s') ∧ DieInv t s' D ∧ Ext s s' ∧
      ∃ r, s'.cell s'.epoch par = some r ∧ r.nextSibling ≠ 0 := by
  have hl := tree_laid ht hm
  obtain ⟨r, hr⟩ := hp
  refine ⟨s.set ⟨s.epoch, par⟩ { r with nextSibling := stop }, ?_, ?_, ext_set _ _ _ (fun r0 h0 => by rw [hr] at h0; injection h0 with h0; rw [← h0]; exact id), ?_⟩
  · cases hc : s.cell s.epoch p with
    | some r' => exact absurd (cell_at ht h hm hc) (fun x => x)
    | none =>
      rw [offset_miss hl.1 hc hl.2.2]
      unfold decode
      simp only
      rw [modify_eq _ _ _ hr]
  · have hstop : 0 < stop := by have := hl.2.1; omega
    apply inv_set h
    · rcases h.cells par r hr with ⟨h1, h2⟩ | ⟨par', g', h1, h2, h3⟩
      · exact .inl ⟨h1, h2⟩
      · right
        refine ⟨par', g', h1, h2, ?_⟩
        rcases tree_parent hm with h4 | ⟨q', e, k, rr, h4, h5, h6⟩
        · have := tree_root_lt ht h1; omega
        · obtain ⟨e1, e2⟩ := tree_inj ht h1 h4 (by rw [h2]; exact h5.symm)
          subst e1; subst e2
          obtain ⟨a, b, c, d, _⟩ := h3
          exact ⟨a, b, c, d, .inr h6⟩
    · intro _ _ _ _ _ h0
      exact absurd (show stop = 0 from h0) (by omega)
    · intro _ _ _ _ _ _ _ h0
      exact absurd (show stop = 0 from h0) (by omega)
  · refine ⟨{ r with nextSibling := stop }, ?_, ?_⟩
    · rw [show (s.set ⟨s.epoch, par⟩ { r with nextSibling := stop }).epoch = s.epoch from rfl, cell_set, if_pos rfl]
    · show stop ≠ 0
      have := hl.2.1; omega

/-- Going to an entry. -/
theorem goto_entry {s : State} {D : Nat → Prop} (h : DieInv t s D) {par : Nat} {g : PF} (hm : (par, g) ∈ t.occs) (hg : g.isEntry = true)
    (p : Option Handle) (hp : ∀ x, p = some x → x.off = par) :
    ∃ s', offsetToDIE u p g.pos s = .ok (some ⟨s.epoch, g.pos⟩, s') ∧ DieInv t s' D ∧ Ext s s' ∧ Has s' g.pos := by
  have hl := tree_laid ht hm
  cases hc : s.cell s.epoch g.pos with
  | some r => exact ⟨s, offset_hit (laid_inUnit hl) hc, h, Ext.refl s, r, hc⟩
  | none =>
    have hpar : ∀ x, parentOff p = x → x = 0 ∨ x = par := by
      intro x hx
      cases p with
      | none => exact .inl hx.symm
      | some q => right; rw [← hx]; exact hp q rfl
    have nodead : ∀ x, LastOf t g.pos x → ¬ D x := by
      intro x hx hd
      obtain ⟨q, ⟨g1, h1, h2, h3, _⟩, ⟨r, hr⟩⟩ := h.sound x hd
      obtain ⟨g2, h1', h2', h3', _⟩ := hx
      obtain ⟨e1, _⟩ := tree_inj ht h1 h1' (h3.trans h3'.symm)
      rw [e1, hc] at hr; cases hr
    cases g with
    | done q s => cases hg
    | leaf e r =>
      obtain ⟨h0, h1, h2, h3, h4, _⟩ := hl
      refine ⟨_, offset_miss h0 hc h2, ?_, ext_set _ _ _ (fun r0 h0 => by rw [show s.cell s.epoch e.off = none from hc] at h0; cases h0), has_set _ _ _⟩
      have hraw : ∀ x, newRaw e.type e.values e.sib e.after x = ⟨e.type, e.values, x, 0, e.after⟩ := by
        intro x; unfold newRaw; rw [if_neg (by rw [h3]; simp)]
      rw [hraw]
      apply inv_set h
      · exact .inr ⟨par, .leaf e r, hm, rfl, rfl, rfl, hpar _ rfl, rfl, .inr rfl⟩
      · intro _ _ _ _ _ h0
        exact absurd (show e.after = 0 from h0) (by omega)
      · intro _ _ _ _ _ _ _ h0
        exact absurd (show e.after = 0 from h0) (by omega)
    | node e k r =>
      obtain ⟨h0, h1, h2, h3, h4, _, h6, _⟩ := hl
      refine ⟨_, offset_miss h0 hc h2, ?_, ext_set _ _ _ (fun r0 h0 => by rw [show s.cell s.epoch e.off = none from hc] at h0; cases h0), has_set _ _ _⟩
      have hraw : ∀ x, newRaw e.type e.values e.sib e.after x = ⟨e.type, e.values, x, e.after, e.sib⟩ := by
        intro x; unfold newRaw; rw [if_pos h3]
      rw [hraw]
      apply inv_set h
      · exact .inr ⟨par, .node e k r, hm, rfl, rfl, rfl, hpar _ rfl, rfl, h6⟩
      · intro par' e' r' hm' he _
        obtain ⟨_, e2⟩ := tree_inj ht hm' hm he
        cases e2
      · intro _ _ _ _ x _ _ _ hx hd
        exact absurd hd (nodead x hx)

/-- Going to the root. -/
theorem goto_root {s : State} {D : Nat → Prop} (h : DieInv t s D) :
    ∃ s', root u s = .ok (some ⟨s.epoch, t.root.off⟩, s') ∧ DieInv t s' D ∧ Ext s s' ∧ Has s' t.root.off := by
  have ht' := ht
  obtain ⟨h1, h2, h3, h4, h5⟩ := ht'
  unfold root
  rw [← h1]
  cases hc : s.cell s.epoch t.root.off with
  | some r => exact ⟨s, offset_hit h2 hc, h, Ext.refl s, r, hc⟩
  | none =>
    refine ⟨_, offset_miss h2 hc h4, ?_, ext_set _ _ _ (fun r0 h0 => by rw [hc] at h0; cases h0), has_set _ _ _⟩
    apply inv_set h
    · left
      refine ⟨rfl, ?_⟩
      unfold newRaw
      obtain ⟨rt, k⟩ := t
      cases k with
      | none =>
        have h5' : rt.type.hasChildren = false := h5
        rw [if_neg (by rw [h5']; simp)]
        exact ⟨rfl, rfl, rfl, rfl⟩
      | some k =>
        rw [if_pos h5.1]
        exact ⟨rfl, rfl, rfl, rfl⟩
    · intro par e rest hm he
      have : t.root.off < e.off := tree_root_lt ht hm
      omega
    · intro par e k rest x hm he
      have : t.root.off < e.off := tree_root_lt ht hm
      omega

/-- Noting the parent. -/
theorem inv_noteParent {s : State} {D : Nat → Prop} (h : DieInv t s D) {par : Nat} {g : PF} (hm : (par, g) ∈ t.occs) (hh : Has s g.pos) :
    ∃ s', noteParent (some ⟨s.epoch, g.pos⟩) ⟨s.epoch, par⟩ s = s' ∧ DieInv t s' D ∧ Ext s s' ∧
      (∃ r, s'.cell s'.epoch g.pos = some r ∧ r.parent = par) ∧
      ∀ o r, s.cell s.epoch o = some r → ∃ r', s'.cell s'.epoch o = some r' ∧ r'.nextSibling = r.nextSibling ∧ (r.parent ≠ 0 → r'.parent = r.parent) := by
  obtain ⟨r, hr⟩ := hh
  have hc := cell_at ht h hm hr
  refine ⟨_, rfl, ?_, ?_, ?_, ?_⟩
  all_goals (
    unfold noteParent
    simp only
    rw [modify_eq _ _ _ hr])
  · have hok : CellOk par g (if r.parent = 0 then { r with parent := par } else r) := by
      by_cases h0 : r.parent = 0
      · rw [if_pos h0]
        cases g with
        | done => exact hc
        | leaf e rest => exact ⟨hc.1, hc.2.1, .inr rfl, hc.2.2.2.1, hc.2.2.2.2⟩
        | node e k rest => exact ⟨hc.1, hc.2.1, .inr rfl, hc.2.2.2.1, hc.2.2.2.2⟩
      · rw [if_neg h0]; exact hc
    have hnext : (if r.parent = 0 then { r with parent := par } else r).nextSibling = r.nextSibling := by
      by_cases h0 : r.parent = 0
      · rw [if_pos h0]
      · rw [if_neg h0]
    apply inv_set h
    · exact .inr ⟨par, g, hm, rfl, hok⟩
    · intro par' e rest hm' he h0
      rw [hnext] at h0
      rw [← he]
      exact h.leafD par' e rest r hm' (by rw [he]; exact hr) h0
    · intro par' e k rest x hm' he h0 hx hd
      rw [hnext] at h0
      rw [← he]
      exact h.nodeD par' e k rest r x hm' (by rw [he]; exact hr) h0 (by rw [he]; exact hx) hd
  · apply ext_set
    intro r0 h0 h1
    rw [hr] at h0; injection h0 with h0
    rw [← h0] at h1
    rw [if_neg h1]; exact h1
  · refine ⟨_, by rw [show (s.set ⟨s.epoch, g.pos⟩ _).epoch = s.epoch from rfl, cell_set, if_pos rfl], ?_⟩
    by_cases h0 : r.parent = 0
    · rw [if_pos h0]
    · rw [if_neg h0]
      cases g with
      | done => exact absurd hc (fun x => x)
      | leaf e rest => exact hc.2.2.1.resolve_left h0
      | node e k rest => exact hc.2.2.1.resolve_left h0
  · intro o r' hr'
    rw [show (s.set ⟨s.epoch, g.pos⟩ _).epoch = s.epoch from rfl, cell_set]
    by_cases he : o = g.pos
    · rw [if_pos he]
      rw [he, hr] at hr'
      injection hr' with hr'
      refine ⟨_, rfl, ?_, ?_⟩
      · by_cases h0 : r.parent = 0
        · rw [if_pos h0, ← hr']
        · rw [if_neg h0, hr']
      · intro h1
        rw [← hr'] at h1
        rw [if_neg h1, hr']
    · rw [if_neg he]; exact ⟨r', hr', rfl, fun _ => rfl⟩

/-- Marking the last child. -/
theorem inv_zero {s : State} {D : Nat → Prop} (h : DieInv t s D) {par x : Nat} (hx : LastOf t par x) {r rp : Raw} (hr : s.cell s.epoch x = some r)
    (hrp : s.cell s.epoch par = some rp) (hor : rp.nextSibling ≠ 0 ∨ D x) :
    DieInv t (s.set ⟨s.epoch, x⟩ { r with nextSibling := 0 }) (fun y => D y ∨ y = x) := by
  have hlt : par ≠ x := by
    obtain ⟨g, h1, _, h3, _⟩ := hx
    intro he
    rcases tree_parent h1 with h4 | ⟨q', e, k, rr, h4, h5, h6⟩
    · have := tree_root_lt ht h1; omega
    · have e2 := (tree_inj ht h1 h4 (by rw [h3, ← he]; exact h5.symm)).2
      have hl := tree_laid ht h4
      rw [e2] at h6
      have h10 : rr.stopOf = k.stopOf := h6
      have h11 := laid_pos_lt hl.2.2.2.2.2.2.2.2
      have h12 := hl.2.2.2.2.2.2.2.1
      omega
  refine ⟨future_set s x _ h.future, ?_, ?_, ?_, ?_⟩
  · intro o' r' hr'
    rw [show (s.set ⟨s.epoch, x⟩ { r with nextSibling := 0 }).epoch = s.epoch from rfl, cell_set] at hr'
    by_cases he : o' = x
    · rw [if_pos he] at hr'; injection hr' with hr'; rw [← hr', he]
      rcases h.cells x r hr with ⟨h1, h2⟩ | ⟨q, g, h1, h2, h3⟩
      · exact .inl ⟨h1, h2⟩
      · right
        refine ⟨q, g, h1, h2, ?_⟩
        cases g with
        | done => exact h3
        | leaf e rest => exact ⟨h3.1, h3.2.1, h3.2.2.1, h3.2.2.2.1, .inl rfl⟩
        | node e k rest => exact ⟨h3.1, h3.2.1, h3.2.2.1, h3.2.2.2.1, .inl rfl⟩
    · rw [if_neg he] at hr'; exact h.cells o' r' hr'
  · intro q e rest r' hm hr' h0
    rw [show (s.set ⟨s.epoch, x⟩ { r with nextSibling := 0 }).epoch = s.epoch from rfl, cell_set] at hr'
    by_cases he : e.off = x
    · exact .inr he
    · rw [if_neg he] at hr'; exact .inl (h.leafD q e rest r' hm hr' h0)
  · intro q e k rest r' y hm hr' h0 hy hd
    rw [show (s.set ⟨s.epoch, x⟩ { r with nextSibling := 0 }).epoch = s.epoch from rfl, cell_set] at hr'
    by_cases he : e.off = x
    · exact .inr he
    · rw [if_neg he] at hr'
      left
      rcases hd with hd | hd
      · exact h.nodeD q e k rest r' y hm hr' h0 hy hd
      · rw [hd] at hy
        have hpe : par = e.off := by
          obtain ⟨g1, a1, _, a3, _⟩ := hx
          obtain ⟨g2, b1, _, b3, _⟩ := hy
          exact (tree_inj ht a1 b1 (a3.trans b3.symm)).1
        rw [← hpe, hrp] at hr'
        injection hr' with hr'
        rcases hor with h1 | h1
        · rw [hr'] at h1; exact absurd h0 h1
        · exact h.nodeD q e k rest r' x hm (by rw [← hpe, hrp, hr']) h0 hy h1
  · intro y hy
    rcases hy with hy | hy
    · obtain ⟨q, h1, h2⟩ := h.sound y hy
      exact ⟨q, h1, has_set' s x _ q h2⟩
    · rw [hy]; exact ⟨par, hx, has_set' s x _ par ⟨rp, hrp⟩⟩

omit ht in
theorem sz_pos (g : PF) : 1 ≤ g.sz := by
  cases g <;> simp only [PF.sz] <;> omega

/-- The entry at the place, if there is one. -/
def curOf (ep : Nat) (g : PF) : Option Handle := if g.isEntry then some ⟨ep, g.pos⟩ else none

/-- The end of the entry at `par` is known, or it is the last of its siblings. -/
def ParDone (t : Tree) (s : State) (D : Nat → Prop) (par : Nat) : Prop :=
  (∃ r, s.cell s.epoch par = some r ∧ r.nextSibling ≠ 0) ∨ ∃ x, LastOf t par x ∧ D x

/-- Arriving at a place, after `prev`. -/
def Arrived (s : State) (D : Nat → Prop) (par : Nat) (prev : Option PF) (g : PF) : Prop :=
  if g.isEntry then Has s g.pos else (∃ r, s.cell s.epoch par = some r ∧ r.nextSibling ≠ 0) ∨ ∃ l, prev = some l ∧ D l.pos

theorem goto {s : State} {D : Nat → Prop} (h : DieInv t s D) {par : Nat} {g : PF} (hm : (par, g) ∈ t.occs) (hp : Has s par) (prev : Option PF) :
    ∃ s', offsetToDIE u (some ⟨s.epoch, par⟩) g.pos s = .ok (curOf s.epoch g, s') ∧ DieInv t s' D ∧ Ext s s' ∧ Arrived s' D par prev g := by
  cases hg : g.isEntry with
  | true =>
    obtain ⟨s', h1, h2, h3, h4⟩ := goto_entry ht h hm hg (some ⟨s.epoch, par⟩) (fun x hx => by injection hx with hx; rw [← hx])
    refine ⟨s', ?_, h2, h3, ?_⟩
    · rw [h1]; unfold curOf; rw [if_pos hg]
    · unfold Arrived; rw [if_pos hg]; exact h4
  | false =>
    cases g with
    | done p stop =>
      obtain ⟨s', h1, h2, h3, h4⟩ := goto_done ht h hm hp
      exact ⟨s', h1, h2, h3, .inl h4⟩
    | leaf e r => cases hg
    | node e k r => cases hg

/-- The parent noted as well. -/
theorem arrive {s : State} {D : Nat → Prop} (h : DieInv t s D) {par : Nat} {g : PF} {prev : Option PF} (hm : (par, g) ∈ t.occs)
    (ha : Arrived s D par prev g) :
    ∃ s', noteParent (curOf s.epoch g) ⟨s.epoch, par⟩ s = s' ∧ DieInv t s' D ∧ Ext s s' ∧ Arrived s' D par prev g ∧
      (g.isEntry = true → ∃ r, s'.cell s'.epoch g.pos = some r ∧ r.parent = par) := by
  cases hg : g.isEntry with
  | true =>
    unfold Arrived at ha
    rw [if_pos hg] at ha
    obtain ⟨s', h1, h2, h3, h4, h5⟩ := inv_noteParent ht h hm ha
    refine ⟨s', ?_, h2, h3, ?_, fun _ => h4⟩
    · unfold curOf; rw [if_pos hg]; exact h1
    · unfold Arrived; rw [if_pos hg]; exact h3.has ha
  | false =>
    refine ⟨s, ?_, h, Ext.refl s, ha, fun h => nomatch h⟩
    unfold curOf; rw [hg]; rfl

omit ht in
/-- Where the children of an entry start. -/
theorem firstChild_eq {s : State} {h : Handle} {r : Raw} (hr : s.get h = some r) : firstChild u h s = offsetToDIE u (some h) r.firstChild s := by
  unfold firstChild; rw [hr]

theorem begin_at {s : State} {D : Nat → Prop} (h : DieInv t s D) {par : Nat} {g : PF} (hm : (par, g) ∈ t.occs) {r : Raw}
    (hr : s.cell s.epoch par = some r) (hf : r.firstChild = g.pos) :
    ∃ s', begin u ⟨s.epoch, par⟩ s = .ok (curOf s.epoch g, s') ∧ DieInv t s' D ∧ Ext s s' ∧ Arrived s' D par none g ∧
      (g.isEntry = true → ∃ r, s'.cell s'.epoch g.pos = some r ∧ r.parent = par) := by
  obtain ⟨s1, h1, h2, h3, h4⟩ := goto ht h hm ⟨r, hr⟩ none
  obtain ⟨s2, g1, g2, g3, g4, g5⟩ := arrive ht h2 hm h4
  refine ⟨s2, ?_, g2, h3.trans g3, g4, g5⟩
  unfold begin
  rw [firstChild_eq (s := s) (h := ⟨s.epoch, par⟩) (r := r) hr, hf, h1, Res.bind_ok]
  simp only
  rw [h3.1] at g1
  rw [g1]

omit ht in
theorem begin_none {s : State} {h : Handle} {r : Raw} (hr : s.get h = some r) (hf : r.firstChild = 0) : begin u h s = .ok (none, s) := by
  unfold begin
  rw [firstChild_eq hr, hf]
  unfold offsetToDIE
  rw [if_pos (.inl rfl), Res.bind_ok]
  rfl

theorem go_next {s : State} {D : Nat → Prop} (h : DieInv t s D) {par : Nat} {g : PF} (hm : (par, g) ∈ t.occs) (hp : Has s par)
    {r : Raw} (hr : s.cell s.epoch g.pos = some r) (hk : r.nextSibling ≠ 0 ∨ D g.pos) :
    ∃ s', offsetToDIE u (some ⟨s.epoch, par⟩) r.nextSibling s = .ok (curOf s.epoch g.next, s') ∧ DieInv t s' D ∧ Ext s s' ∧
      Arrived s' D par (some g) g.next := by
  have hc := cell_at ht h hm hr
  by_cases h0 : r.nextSibling = 0
  · have hd : D g.pos := hk.resolve_left (fun x => x h0)
    obtain ⟨q, ⟨g', h1, h2, h3, h4⟩, h5⟩ := h.sound _ hd
    obtain ⟨e1, e2⟩ := tree_inj ht h1 hm h3
    subst e1; subst e2
    refine ⟨s, ?_, h, Ext.refl s, ?_⟩
    · unfold offsetToDIE curOf
      rw [if_pos (.inl h0), h4]; rfl
    · unfold Arrived
      rw [h4]
      exact .inr ⟨_, rfl, hd⟩
  · have hpos : r.nextSibling = g.next.pos := by
      have hl := tree_laid ht hm
      cases g with
      | done => exact absurd hc (fun x => x)
      | leaf e rest => rw [hc.2.2.2.2.resolve_left h0]; exact hl.2.2.2.2.1.symm
      | node e k rest => rw [hc.2.2.2.2.resolve_left h0]; exact hl.2.2.2.2.2.2.2.1.symm
    rw [hpos]
    exact goto ht h (tree_next hm) hp _

/-- One more round of the loop. -/
theorem die_loop_step {par : Nat} {g : PF} {s s1 : State} {D1 : Nat → Prop} {fuel : Nat} (hm : (par, g) ∈ t.occs) (hg : g.isEntry = true) (hh : Has s g.pos)
    (h1 : nextSibling u fuel ⟨s.epoch, g.pos⟩ ⟨s.epoch, par⟩ s = .ok (curOf s.epoch g.next, s1)) (h2 : DieInv t s1 D1) (h3 : Ext s s1)
    (h4 : Arrived s1 D1 par (some g) g.next)
    (ih : ∀ s D, DieInv t s D → Has s par → Arrived s D par (some g) g.next → Has s g.pos →
      ∃ s' D', nextSibling.loop u fuel (curOf s.epoch g.next) (some ⟨s.epoch, g.pos⟩) ⟨s.epoch, par⟩ s = .ok s' ∧ DieInv t s' D' ∧ Ext s s' ∧ ParDone t s' D' par)
    (hp : Has s par) (last : Option Handle) :
      ∃ s' D', nextSibling.loop u (fuel + 1) (curOf s.epoch g) last ⟨s.epoch, par⟩ s = .ok s' ∧ DieInv t s' D' ∧ Ext s s' ∧ ParDone t s' D' par := by
  obtain ⟨s2, g1, g2, g3, g4, _⟩ := arrive ht h2 (tree_next hm) h4
  have h3' := h3.trans g3
  obtain ⟨s3, D3, i1, i2, i3, i4⟩ := ih s2 D1 g2 (h3'.has hp) g4 (h3'.has hh)
  refine ⟨s3, D3, ?_, i2, h3'.trans i3, i4⟩
  rw [show curOf s.epoch g = some ⟨s.epoch, g.pos⟩ by unfold curOf; rw [if_pos hg], nextSibling.loop, h1, Res.bind_ok]
  simp only
  rw [h3.1] at g1
  rw [g1]
  rw [h3'.1] at i1
  exact i1

/-- The two parts of the walk that finds where an entry ends. -/
theorem sibling_walk (g : PF) : ∀ (par : Nat) (s : State) (D : Nat → Prop) (fuel : Nat), (par, g) ∈ t.occs → DieInv t s D → Has s par → g.sz ≤ fuel →
    (g.isEntry = true → Has s g.pos → ∃ s' D', nextSibling u fuel ⟨s.epoch, g.pos⟩ ⟨s.epoch, par⟩ s = .ok (curOf s.epoch g.next, s') ∧
      DieInv t s' D' ∧ Ext s s' ∧ Arrived s' D' par (some g) g.next) ∧
    (∀ prev : Option PF, Arrived s D par prev g → (∀ l, prev = some l → (par, l) ∈ t.occs ∧ l.isEntry = true ∧ l.next = g ∧ Has s l.pos) →
      ∃ s' D', nextSibling.loop u fuel (curOf s.epoch g) (prev.map (fun l => ⟨s.epoch, l.pos⟩)) ⟨s.epoch, par⟩ s = .ok s' ∧
      DieInv t s' D' ∧ Ext s s' ∧ ParDone t s' D' par) := by
  induction g with
  | done p stop =>
    intro par s D fuel hm h hp hf
    refine ⟨fun hg => (nomatch hg), ?_⟩
    intro last ha hlast
    cases fuel with
    | zero => exact absurd hf (by simp [PF.sz])
    | succ fuel =>
      cases last with
      | none =>
        refine ⟨s, D, rfl, h, Ext.refl s, ?_⟩
        rcases (show _ ∨ _ from ha) with ha | ⟨l, hl, _⟩
        · exact .inl ha
        · cases hl
      | some l =>
        obtain ⟨l1, l2, l3, r, hr⟩ := hlast l rfl
        obtain ⟨rp, hrp⟩ := hp
        have hlo : LastOf t par l.pos := ⟨l, l1, l2, rfl, by rw [l3]; rfl⟩
        have hor : rp.nextSibling ≠ 0 ∨ D l.pos := by
          rcases (show _ ∨ _ from ha) with ⟨r', hr', hn⟩ | ⟨x, hx, hd⟩
          · rw [hrp] at hr'; injection hr' with hr'; rw [hr']; exact .inl hn
          · injection hx with hx; rw [hx]; exact .inr hd
        refine ⟨_, _, ?_, inv_zero ht h hlo hr hrp hor, ext_set _ _ _ (fun r0 h0 => by rw [hr] at h0; injection h0 with h0; rw [← h0]; exact id), ?_⟩
        · show Res.ok (s.modify ⟨s.epoch, l.pos⟩ _) = _
          rw [modify_eq _ _ _ hr]
        · exact .inr ⟨l.pos, hlo, .inr rfl⟩
  | leaf e rest ih =>
    intro par s D fuel hm h hp hf
    have first : ∀ fuel, 2 ≤ fuel → ∀ s D, DieInv t s D → Has s par → Has s e.off → ∃ s' D', nextSibling u fuel ⟨s.epoch, e.off⟩ ⟨s.epoch, par⟩ s = .ok (curOf s.epoch rest, s') ∧
        DieInv t s' D' ∧ Ext s s' ∧ Arrived s' D' par (some (PF.leaf e rest)) rest := by
      intro fuel hf s D h hp hh
      obtain ⟨r, hr⟩ := hh
      have hc := cell_at ht h hm hr
      obtain ⟨fuel, rfl⟩ : ∃ n, fuel = n + 1 + 1 := ⟨fuel - 2, by omega⟩
      by_cases h0 : r.nextSibling = 0
      · obtain ⟨s', h1, h2, h3, h4⟩ := go_next ht h hm hp hr (.inr (h.leafD par e rest r hm hr h0))
        refine ⟨s', D, ?_, h2, h3, h4⟩
        rw [nextSibling]
        simp only [get_cur]
        rw [hr]
        simp only
        rw [if_pos h0, begin_none (s := s) (h := ⟨s.epoch, e.off⟩) hr hc.2.2.2.1, Res.bind_ok]
        simp only
        rw [nextSibling.loop, Res.bind_ok]
        simp only [get_cur]
        rw [hr]
        exact h1
      · obtain ⟨s', h1, h2, h3, h4⟩ := go_next ht h hm hp hr (.inl h0)
        refine ⟨s', D, ?_, h2, h3, h4⟩
        rw [nextSibling]
        simp only [get_cur]
        rw [hr]
        simp only
        rw [if_neg h0, Res.bind_ok]
        simp only [get_cur]
        rw [hr]
        exact h1
    have hsz : (PF.leaf e rest).sz = 2 + rest.sz := rfl
    have hsz1 : 1 ≤ rest.sz := sz_pos rest
    refine ⟨fun _ hh => first fuel (by omega) s D h hp hh, ?_⟩
    intro prev ha hprev
    have hh : Has s e.off := ha
    obtain ⟨fuel, rfl⟩ : ∃ n, fuel = n + 1 := ⟨fuel - 1, by omega⟩
    obtain ⟨s1, D1, h1, h2, h3, h4⟩ := first fuel (by omega) s D h hp hh
    refine die_loop_step ht hm rfl hh h1 h2 h3 h4 ?_ hp _
    intro s D h hp ha hh
    exact (ih par s D fuel (tree_next hm) h hp (by omega)).2 (some (.leaf e rest)) ha
      (fun l hl => by injection hl with hl; rw [← hl]; exact ⟨hm, rfl, rfl, hh⟩)
  | node e k rest ihk ihr =>
    intro par s D fuel hm h hp hf
    have first : ∀ fuel, 1 + k.sz ≤ fuel → ∀ s D, DieInv t s D → Has s par → Has s e.off → ∃ s' D', nextSibling u fuel ⟨s.epoch, e.off⟩ ⟨s.epoch, par⟩ s = .ok (curOf s.epoch rest, s') ∧
        DieInv t s' D' ∧ Ext s s' ∧ Arrived s' D' par (some (PF.node e k rest)) rest := by
      intro fuel hf s D h hp hh
      obtain ⟨r, hr⟩ := hh
      have hc := cell_at ht h hm hr
      obtain ⟨fuel, rfl⟩ : ∃ n, fuel = n + 1 := ⟨fuel - 1, by omega⟩
      by_cases h0 : r.nextSibling = 0
      · have hk : (e.off, k) ∈ t.occs := tree_kids hm
        have hkp : k.pos = e.after := (tree_laid ht hm).2.2.2.2.1
        obtain ⟨s1, a1, a2, a3, a4, _⟩ := begin_at ht h hk hr (by rw [hkp]; exact hc.2.2.2.1)
        obtain ⟨s2, D2, b1, b2, b3, b4⟩ := (ihk e.off s1 D fuel hk a2 (a3.has ⟨r, hr⟩) (by omega)).2 none a4 (fun l hl => by cases hl)
        have h3 := a3.trans b3
        obtain ⟨r2, hr2⟩ := h3.has ⟨r, hr⟩
        have hor : r2.nextSibling ≠ 0 ∨ D2 e.off := by
          rcases b4 with ⟨r', hr', hn⟩ | ⟨x, hx, hd⟩
          · rw [hr2] at hr'; injection hr' with hr'; rw [hr']; exact .inl hn
          · by_cases hz : r2.nextSibling = 0
            · exact .inr (b2.nodeD par e k rest r2 x hm hr2 hz hx hd)
            · exact .inl hz
        obtain ⟨s3, c1, c2, c3, c4⟩ := go_next ht b2 hm (h3.has hp) hr2 hor
        refine ⟨s3, D2, ?_, c2, h3.trans c3, c4⟩
        rw [nextSibling]
        simp only [get_cur]
        rw [hr]
        simp only
        rw [if_pos h0, a1, Res.bind_ok]
        simp only
        rw [a3.1] at b1
        simp only [Option.map_none] at b1
        rw [b1, Res.bind_ok]
        rw [show s2.get ⟨s.epoch, e.off⟩ = some r2 by rw [← h3.1]; exact hr2]
        simp only
        rw [h3.1] at c1
        exact c1
      · obtain ⟨s', h1, h2, h3, h4⟩ := go_next ht h hm hp hr (.inl h0)
        refine ⟨s', D, ?_, h2, h3, h4⟩
        rw [nextSibling]
        simp only [get_cur]
        rw [hr]
        simp only
        rw [if_neg h0, Res.bind_ok]
        simp only [get_cur]
        rw [hr]
        exact h1
    have hsz : (PF.node e k rest).sz = 2 + k.sz + rest.sz := rfl
    have hsz1 : 1 ≤ rest.sz := sz_pos rest
    refine ⟨fun _ hh => first fuel (by omega) s D h hp hh, ?_⟩
    intro prev ha hprev
    have hh : Has s e.off := ha
    obtain ⟨fuel, rfl⟩ : ∃ n, fuel = n + 1 := ⟨fuel - 1, by omega⟩
    obtain ⟨s1, D1, h1, h2, h3, h4⟩ := first fuel (by omega) s D h hp hh
    refine die_loop_step ht hm rfl hh h1 h2 h3 h4 ?_ hp _
    intro s D h hp ha hh
    exact (ihr par s D fuel (tree_next hm) h hp (by omega)).2 (some (.node e k rest)) ha
      (fun l hl => by injection hl with hl; rw [← hl]; exact ⟨hm, rfl, rfl, hh⟩)

/-- Going on to the next of the children: `++it`. -/
theorem next_at {s : State} {D : Nat → Prop} (h : DieInv t s D) {par : Nat} {g : PF} (hm : (par, g) ∈ t.occs) (hp : Has s par) (hg : g.isEntry = true)
    (hh : Has s g.pos) {fuel : Nat} (hf : g.sz ≤ fuel) :
    ∃ s' D', Die.next u fuel ⟨s.epoch, g.pos⟩ ⟨s.epoch, par⟩ s = .ok (curOf s.epoch g.next, s') ∧ DieInv t s' D' ∧ Ext s s' ∧
      (g.next.isEntry = true → ∃ r, s'.cell s'.epoch g.next.pos = some r ∧ r.parent = par) := by
  obtain ⟨s1, D1, h1, h2, h3, h4⟩ := (sibling_walk ht g par s D fuel hm h hp hf).1 hg hh
  obtain ⟨s2, g1, g2, g3, _, g5⟩ := arrive ht h2 (tree_next hm) h4
  refine ⟨s2, D1, ?_, g2, h3.trans g3, g5⟩
  unfold Die.next
  rw [h1, Res.bind_ok]
  simp only
  rw [h3.1] at g1
  rw [g1]

end

end Pstack.Props
