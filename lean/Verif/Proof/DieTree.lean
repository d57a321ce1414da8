import Verif.Proof.DieBytes
/-
The entries of a unit and where they are.
-/
namespace Pstack.Props
open Pstack.Reader Pstack.Spec Pstack.Dwarf Pstack.Die

/-- A unit is opened, and its entries are where they should be. -/
theorem open_unit {info abbr : List Byte} {off : Nat} {x : DieUnit} (hx : x.WF) (hr : UnitReadable x) (hat : At info abbr off x) :
    ∃ u t, openUnit info abbr off = .ok u ∧ LaidTree u t ∧ DieTree.Rel (DieShows info x.sizes) t.seen (x.placed off) ∧
      u.info = info ∧ u.offset = off ∧ u.stop = off + x.encode.length ∧ u.rootOffset = off + x.rootPos ∧ SizesOf u x.sizes := by
  obtain ⟨rest, hu⟩ := hat.unit
  obtain ⟨rest', hd⟩ := hat.table
  have hw : info.length < W64 := by rw [W64_eq]; exact hat.fit.1
  have hw' : abbr.length < W64 := by rw [W64_eq]; exact hat.fit.2
  obtain ⟨p, hh⟩ := header_reads hw x hx hr hu
  have hdl : x.decls.length < abbr.length + 1 := by
    have h1 := congrArg List.length hd
    rw [List.length_drop] at h1
    have h2 := flatten_ge DieDecl.encode x.decls (fun a _ => by simp [DieDecl.encode, encodeU_ne])
    simp only [encodeDecls, List.length_append] at h1
    omega
  have hl := reads_decls hw' x.decls [] (abbr.length + 1) hx.decls hdl x.abbrevPos rest' hd
  have hlen := off_le_of_drop hu (by
    intro e
    have := congrArg List.length e
    unfold DieUnit.encode DieUnit.lengthField at this
    split at this <;> simp [leBytes_length] at this)
  let u : Die.Unit := ⟨info, off, off + x.encode.length, x.version, (if x.version ≤ 2 then 8 else x.offSize), x.addrSize, off + x.rootPos,
    x.decls.map (fun x => (x.code, abbrevOf x))⟩
  have hopen : openUnit info abbr off = .ok u := by
    unfold openUnit
    rw [hh, Res.bind_ok]
    simp only
    rw [hl, Res.bind_ok]
    rfl
  have hv := hx.version
  have hsz : SizesOf u x.sizes := by
    refine ⟨rfl, hv.1, rfl, ?_, ?_, rfl, ?_⟩
    · show x.addrSize ≤ 8
      rcases hx.addrSize with e | e | e | e <;> omega
    · show x.offSize = 4 ∨ x.offSize = 8
      unfold DieUnit.offSize; split <;> simp
    · intro h2
      have h2 : x.version = 2 := h2
      refine ⟨?_, (hr.v2 h2).1⟩
      show x.offSize = 4
      unfold DieUnit.offSize; rw [hx.v2 h2]; rfl
  have hform : ∀ a ∈ x.decls, ∀ b ∈ a.attrs, FormOk x.sizes b.form :=
    fun a ha b hb => ⟨hr.forms a ha b hb, fun h2 => (hr.v2 h2).2 a ha b hb⟩
  have henc : x.encode = x.lengthField ++ (x.header ++ (x.tree.encode x.sizes ++ x.pad)) := rfl
  have hroot : info.drop (off + x.rootPos) = x.tree.encode x.sizes ++ (x.pad ++ rest) := by
    rw [henc] at hu
    simp only [List.append_assoc] at hu
    have := drop_prefix (drop_prefix hu)
    rw [Nat.add_assoc] at this
    exact this
  have hpos : 0 < x.rootPos := by
    unfold DieUnit.rootPos DieUnit.lengthField
    split <;> simp [leBytes_length] <;> omega
  have hel : x.encode.length = x.rootPos + (x.tree.encode x.sizes).length + x.pad.length := by
    rw [henc]; simp only [List.length_append, DieUnit.rootPos]; omega
  have hstop : u.stop < 2 ^ 64 := by
    show off + x.encode.length < 2 ^ 64
    rw [W64_eq] at hw; omega
  obtain ⟨t, t1, t2⟩ := laid_tree hw (u := u) hsz rfl hx.decls hx.codes hform rfl hstop x.tree x.rootPos (x.pad ++ rest) hx.tree hroot hpos
    (by show off + x.rootPos + _ ≤ off + x.encode.length; omega) rfl
  exact ⟨u, t, hopen, t1, t2, rfl, rfl, rfl, rfl, hsz⟩

/-! ### Places -/

theorem rel_map {α β γ : Type} {R : α → β → Prop} {h : α → γ} {h' : β → γ} (hr : ∀ a b, R a b → h a = h' b) {f : Forest α} {g : Forest β}
    (hf : Forest.Rel R f g) : f.map h = g.map h' := by
  induction hf with
  | done => rfl
  | leaf r _ ih => rw [Forest.map, Forest.map, hr _ _ r, ih]
  | node r _ _ ih1 ih2 => rw [Forest.map, Forest.map, hr _ _ r, ih1, ih2]

theorem treeRel_map {α β γ : Type} {R : α → β → Prop} {h : α → γ} {h' : β → γ} (hr : ∀ a b, R a b → h a = h' b) {f : DieTree α} {g : DieTree β}
    (hf : DieTree.Rel R f g) : f.map h = g.map h' := by
  cases hf with
  | leaf r => simp [DieTree.map, hr _ _ r]
  | node r h => simp [DieTree.map, hr _ _ r, rel_map hr h]

theorem head_seen (g : PF) : (g.seen.map Seen.off).head? = if g.isEntry then some g.pos else none := by
  cases g <;> rfl

theorem steps_occs (g : PF) : ∀ (par p x : Nat) (n : Option Nat), (p, x, n) ∈ (g.seen.map Seen.off).steps par ↔
    ∃ g', (p, g') ∈ g.occs par ∧ g'.isEntry = true ∧ g'.pos = x ∧ n = if g'.next.isEntry then some g'.next.pos else none := by
  induction g with
  | done a b =>
    intro par p x n
    constructor
    · intro h; cases h
    · rintro ⟨g', h1, h2, _⟩
      simp [PF.occs] at h1
      rw [h1.2] at h2; cases h2
  | leaf e r ih =>
    intro par p x n
    simp only [PF.seen, Forest.map, Forest.steps, PF.occs, List.mem_cons]
    constructor
    · rintro (h | h)
      · injection h with h1 h2; injection h2 with h2 h3
        exact ⟨.leaf e r, .inl (by rw [h1]), rfl, h2.symm, by rw [h3, head_seen]; rfl⟩
      · obtain ⟨g', h1, h2⟩ := (ih par p x n).1 h
        exact ⟨g', .inr h1, h2⟩
    · rintro ⟨g', h1 | h1, h2, h3, h4⟩
      · injection h1 with h0 h1
        subst h1
        refine .inl ?_
        rw [h0, ← h3, h4, head_seen]; rfl
      · exact .inr ((ih par p x n).2 ⟨g', h1, h2, h3, h4⟩)
  | node e k r ihk ihr =>
    intro par p x n
    simp only [PF.seen, Forest.map, Forest.steps, PF.occs, List.mem_cons, List.mem_append]
    constructor
    · rintro (h | h | h)
      · injection h with h1 h2; injection h2 with h2 h3
        exact ⟨.node e k r, .inl (by rw [h1]), rfl, h2.symm, by rw [h3, head_seen]; rfl⟩
      · obtain ⟨g', h1, h2⟩ := (ihk e.off p x n).1 h
        exact ⟨g', .inr (.inl h1), h2⟩
      · obtain ⟨g', h1, h2⟩ := (ihr par p x n).1 h
        exact ⟨g', .inr (.inr h1), h2⟩
    · rintro ⟨g', h1 | h1 | h1, h2, h3, h4⟩
      · injection h1 with h0 h1
        subst h1
        refine .inl ?_
        rw [h0, ← h3, h4, head_seen]; rfl
      · exact .inr (.inl ((ihk e.off p x n).2 ⟨g', h1, h2, h3, h4⟩))
      · exact .inr (.inr ((ihr par p x n).2 ⟨g', h1, h2, h3, h4⟩))

/-- The first child of an entry. -/
def PF.first : PF → Option Nat
  | .node _ k _ => if k.isEntry then some k.pos else none
  | _ => none

theorem firsts_occs (g : PF) : ∀ (par x : Nat) (n : Option Nat), (x, n) ∈ (g.seen.map Seen.off).firsts ↔
    ∃ p g', (p, g') ∈ g.occs par ∧ g'.isEntry = true ∧ g'.pos = x ∧ n = g'.first := by
  induction g with
  | done a b =>
    intro par x n
    constructor
    · intro h; cases h
    · rintro ⟨p, g', h1, h2, _⟩
      simp [PF.occs] at h1
      rw [h1.2] at h2; cases h2
  | leaf e r ih =>
    intro par x n
    simp only [PF.seen, Forest.map, Forest.firsts, PF.occs, List.mem_cons]
    constructor
    · rintro (h | h)
      · injection h with h1 h2
        exact ⟨par, _, .inl rfl, rfl, h1.symm, h2⟩
      · obtain ⟨p, g', h1, h2⟩ := (ih par x n).1 h
        exact ⟨p, g', .inr h1, h2⟩
    · rintro ⟨p, g', h1 | h1, h2, h3, h4⟩
      · injection h1 with h0 h1
        subst h1
        refine .inl ?_
        rw [← h3, h4]; rfl
      · exact .inr ((ih par x n).2 ⟨p, g', h1, h2, h3, h4⟩)
  | node e k r ihk ihr =>
    intro par x n
    simp only [PF.seen, Forest.map, Forest.firsts, PF.occs, List.mem_cons, List.mem_append]
    constructor
    · rintro (h | h | h)
      · injection h with h1 h2
        exact ⟨par, _, .inl rfl, rfl, h1.symm, by rw [h2, head_seen]; rfl⟩
      · obtain ⟨p, g', h1, h2⟩ := (ihk e.off x n).1 h
        exact ⟨p, g', .inr (.inl h1), h2⟩
      · obtain ⟨p, g', h1, h2⟩ := (ihr par x n).1 h
        exact ⟨p, g', .inr (.inr h1), h2⟩
    · rintro ⟨p, g', h1 | h1 | h1, h2, h3, h4⟩
      · injection h1 with h0 h1
        subst h1
        refine .inl ?_
        rw [← h3, h4, head_seen]; rfl
      · exact .inr (.inl ((ihk e.off x n).2 ⟨p, g', h1, h2, h3, h4⟩))
      · exact .inr (.inr ((ihr par x n).2 ⟨p, g', h1, h2, h3, h4⟩))

theorem withParent_occs (g : PF) : ∀ (par p x : Nat), (p, x) ∈ (g.seen.map Seen.off).withParent par ↔
    ∃ g', (p, g') ∈ g.occs par ∧ g'.isEntry = true ∧ g'.pos = x := by
  have aux : ∀ {α : Type} (f : Forest α) (par : α), f.withParent par = (f.steps par).map (fun s => (s.1, s.2.1)) := by
    intro α f
    induction f with
    | done => intro _; rfl
    | leaf a r ih => intro par; simp [Forest.withParent, Forest.steps, ih]
    | node a k r ihk ihr => intro par; simp [Forest.withParent, Forest.steps, ihk, ihr]
  intro par p x
  rw [aux, List.mem_map]
  constructor
  · rintro ⟨⟨p', x', n⟩, h1, h2⟩
    injection h2 with h2 h3
    obtain ⟨g', k1, k2, k3, _⟩ := (steps_occs g par p' x' n).1 h1
    exact ⟨g', by rw [← h2]; exact k1, k2, by rw [← h3]; exact k3⟩
  · rintro ⟨g', h1, h2, h3⟩
    exact ⟨(p, x, _), (steps_occs g par p x _).2 ⟨g', h1, h2, h3, rfl⟩, rfl⟩

/-- The same for the tree. -/
theorem tree_steps (t : Tree) (p x : Nat) (n : Option Nat) : (p, x, n) ∈ (t.seen.map Seen.off).steps ↔
    ∃ g', (p, g') ∈ t.occs ∧ g'.isEntry = true ∧ g'.pos = x ∧ n = if g'.next.isEntry then some g'.next.pos else none := by
  obtain ⟨r, k⟩ := t
  cases k with
  | none => exact ⟨(fun h => nomatch h), (fun ⟨_, h, _⟩ => nomatch h)⟩
  | some k => exact steps_occs k r.off p x n

theorem tree_withParent (t : Tree) (p x : Nat) : (p, x) ∈ (t.seen.map Seen.off).withParent ↔
    ∃ g', (p, g') ∈ t.occs ∧ g'.isEntry = true ∧ g'.pos = x := by
  obtain ⟨r, k⟩ := t
  cases k with
  | none => exact ⟨(fun h => nomatch h), (fun ⟨_, h, _⟩ => nomatch h)⟩
  | some k => exact withParent_occs k r.off p x

def Tree.first (t : Tree) : Option Nat :=
  match t.kids with
  | none => none
  | some k => if k.isEntry then some k.pos else none

theorem tree_firsts (t : Tree) (x : Nat) (n : Option Nat) : (x, n) ∈ (t.seen.map Seen.off).firsts ↔
    (x = t.root.off ∧ n = t.first) ∨ ∃ p g', (p, g') ∈ t.occs ∧ g'.isEntry = true ∧ g'.pos = x ∧ n = g'.first := by
  obtain ⟨r, k⟩ := t
  cases k with
  | none =>
    show (x, n) ∈ [(r.off, (none : Option Nat))] ↔ _
    simp only [List.mem_singleton]
    constructor
    · intro h; injection h with h1 h2; exact .inl ⟨h1, h2⟩
    · rintro (⟨h1, h2⟩ | ⟨p, g', h, _⟩)
      · rw [h1, h2]; rfl
      · cases h
  | some k =>
    show (x, n) ∈ (r.off, (k.seen.map Seen.off).head?) :: (k.seen.map Seen.off).firsts ↔ _
    rw [List.mem_cons, firsts_occs k r.off, head_seen]
    constructor
    · rintro (h | h)
      · injection h with h1 h2; exact .inl ⟨h1, h2⟩
      · exact .inr h
    · rintro (⟨h1, h2⟩ | h)
      · exact .inl (by rw [h1, h2]; rfl)
      · exact .inr h

theorem tree_all (t : Tree) (o : Nat) : o ∈ (t.seen.map Seen.off).all ↔ EntryAt t o := by
  unfold DieTree.all EntryAt
  rw [List.mem_map]
  constructor
  · rintro ⟨⟨x, n⟩, h, rfl⟩
    rcases (tree_firsts t x n).1 h with ⟨h, _⟩ | ⟨p, g', h1, h2, h3, _⟩
    · exact .inl h
    · exact .inr ⟨p, g', h1, h2, h3⟩
  · rintro (h | ⟨p, g, h1, h2, h3⟩)
    · exact ⟨(o, t.first), (tree_firsts t o _).2 (.inl ⟨h, rfl⟩), rfl⟩
    · exact ⟨(o, g.first), (tree_firsts t o _).2 (.inr ⟨p, g, h1, h2, h3, rfl⟩), rfl⟩

/-- An entry of the tree that is decoded is one that is seen. -/
def Tree.ent (t : Tree) (o : Nat) (s : Seen) : Prop :=
  s.off = o ∧ ((o = t.root.off ∧ s.type = t.root.type ∧ s.values = t.root.values) ∨
    ∃ p g e, (p, g) ∈ t.occs ∧ g.pos = o ∧ ((∃ r, g = PF.leaf e r) ∨ ∃ k r, g = PF.node e k r) ∧ s.type = e.type ∧ s.values = e.values)

theorem seen_at {t : Tree} {s : State} {D : Nat → Prop} (h : DieInv t s D) {o : Nat} (hh : Has s o) : ∃ x, seen s ⟨s.epoch, o⟩ = .ok x ∧ t.ent o x := by
  obtain ⟨r, hr⟩ := hh
  refine ⟨⟨o, r.type, r.values⟩, ?_, rfl, ?_⟩
  · unfold seen
    rw [show s.get ⟨s.epoch, o⟩ = some r from hr]
  · rcases h.cells o r hr with ⟨h1, h2⟩ | ⟨p, g, h1, h2, h3⟩
    · exact .inl ⟨h1, h2.1, h2.2.1⟩
    · refine .inr ?_
      cases g with
      | done => exact h3.elim
      | leaf e rest => exact ⟨p, _, e, h1, h2, .inl ⟨rest, rfl⟩, h3.1, h3.2.1⟩
      | node e k rest => exact ⟨p, _, e, h1, h2, .inr ⟨k, rest, rfl⟩, h3.1, h3.2.1⟩

/-- All entries of a list and below. -/
def forestAll {α : Type} (f : Forest α) : List α := f.firsts.map (·.1)

theorem rel_mem {α β : Type} {R : α → β → Prop} {f : Forest α} {g : Forest β} (h : Forest.Rel R f g) : ∀ a ∈ forestAll f, ∃ b ∈ forestAll g, R a b := by
  induction h with
  | done => intro a ha; cases ha
  | @leaf a b f g r _ ih =>
    intro x hx
    simp only [forestAll, Forest.firsts, List.map_cons, List.mem_cons] at hx ⊢
    rcases hx with rfl | hx
    · exact ⟨b, .inl rfl, r⟩
    · obtain ⟨y, h1, h2⟩ := ih x hx; exact ⟨y, .inr h1, h2⟩
  | @node a b k l f g r _ _ ih1 ih2 =>
    intro x hx
    simp only [forestAll, Forest.firsts, List.map_cons, List.mem_cons, List.map_append, List.mem_append] at hx ⊢
    rcases hx with rfl | hx | hx
    · exact ⟨b, .inl rfl, r⟩
    · obtain ⟨y, h1, h2⟩ := ih1 x hx; exact ⟨y, .inr (.inl h1), h2⟩
    · obtain ⟨y, h1, h2⟩ := ih2 x hx; exact ⟨y, .inr (.inr h1), h2⟩

theorem treeRel_mem {α β : Type} {R : α → β → Prop} {f : DieTree α} {g : DieTree β} (h : DieTree.Rel R f g) : ∀ a ∈ f.all, ∃ b ∈ g.all, R a b := by
  cases h with
  | @leaf a b r =>
    intro x hx
    simp only [DieTree.all, DieTree.firsts, List.map_cons, List.map_nil, List.mem_singleton] at hx ⊢
    exact ⟨b, rfl, by rw [hx]; exact r⟩
  | @node a b f g r h =>
    intro x hx
    simp only [DieTree.all, DieTree.firsts, List.map_cons, List.mem_cons] at hx ⊢
    rcases hx with rfl | hx
    · exact ⟨b, .inl rfl, r⟩
    · obtain ⟨y, h1, h2⟩ := rel_mem h x hx; exact ⟨y, .inr h1, h2⟩

theorem occs_seen_mem (g : PF) : ∀ (par p : Nat) (g' : PF) (e : Ent), (p, g') ∈ g.occs par → ((∃ r, g' = PF.leaf e r) ∨ ∃ k r, g' = PF.node e k r) →
    (⟨e.off, e.type, e.values⟩ : Seen) ∈ forestAll g.seen := by
  induction g with
  | done a b =>
    intro par p g' e h he
    simp [PF.occs] at h
    rcases he with ⟨r, he⟩ | ⟨k, r, he⟩ <;> (rw [h.2] at he; cases he)
  | leaf x r ih =>
    intro par p g' e h he
    simp only [PF.seen, forestAll, Forest.firsts, List.map_cons, List.mem_cons]
    rcases List.mem_cons.1 h with h | h
    · injection h with _ h
      rcases he with ⟨r', he⟩ | ⟨k, r', he⟩
      · rw [h] at he; injection he with he _; subst he; exact .inl rfl
      · rw [h] at he; cases he
    · exact .inr (ih par p g' e h he)
  | node x k r ihk ihr =>
    intro par p g' e h he
    simp only [PF.seen, forestAll, Forest.firsts, List.map_cons, List.mem_cons, List.map_append, List.mem_append]
    rcases List.mem_cons.1 h with h | h
    · injection h with _ h
      rcases he with ⟨r', he⟩ | ⟨k', r', he⟩
      · rw [h] at he; cases he
      · rw [h] at he; injection he with he _ _; subst he; exact .inl rfl
    · rcases List.mem_append.1 h with h | h
      · exact .inr (.inl (ihk _ p g' e h he))
      · exact .inr (.inr (ihr _ p g' e h he))

theorem ent_mem {t : Tree} {o : Nat} {s : Seen} (h : t.ent o s) : s ∈ t.seen.all := by
  obtain ⟨r, k⟩ := t
  obtain ⟨so, st, sv⟩ := s
  obtain ⟨h0, h⟩ := h
  rcases h with ⟨h1, h2, h3⟩ | ⟨p, g, e, h1, h2, h3, h4, h5⟩
  · have : (⟨so, st, sv⟩ : Seen) = ⟨r.off, r.type, r.values⟩ := by
      have h0 : so = o := h0
      have h2 : st = r.type := h2
      have h3 : sv = r.values := h3
      rw [h2, h3, h0, h1]
    rw [this]
    cases k <;> simp [Tree.seen, DieTree.all, DieTree.firsts]
  · cases k with
    | none => cases h1
    | some k =>
      have hm := occs_seen_mem k r.off p g e h1 h3
      have : (⟨so, st, sv⟩ : Seen) = ⟨e.off, e.type, e.values⟩ := by
        have h0 : so = o := h0
        have h4 : st = e.type := h4
        have h5 : sv = e.values := h5
        have : g.pos = e.off := by rcases h3 with ⟨r', rfl⟩ | ⟨k', r', rfl⟩ <;> rfl
        rw [h4, h5, h0, ← h2, this]
      rw [this]
      show _ ∈ List.map (·.1) ((_, _) :: k.seen.firsts)
      exact List.mem_cons_of_mem _ hm

end Pstack.Props
