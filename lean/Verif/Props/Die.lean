import Verif.Proof.DieTree
/-
Property theorems C23, C24: the entries of a unit.

A unit `x` (Spec/Die.lean) is at offset `off` of .debug_info. Programs visit it in any way: they go to the root, to the target of any
reference, run over children with several iterators at a time, ask for parents, drop the cache (`History`, Spec/DieMeaning.lean).
-/
namespace Pstack.Props
open Pstack.Reader Pstack.Spec Pstack.Dwarf Pstack.Die

/-- The references a program follows in the unit are to its entries. -/
def Refs (x : DieUnit) (off : Nat) : Nat → Prop := fun o => o ∈ (x.offsets off).all

section
variable {info abbr : List Byte} {off : Nat} {x : DieUnit} (hx : x.WF) (hr : UnitReadable x) (hat : At info abbr off x)
include hx hr hat

/-- What is known of a program after any history. -/
theorem client_good : ∃ u t, openUnit info abbr off = .ok u ∧ LaidTree u t ∧ DieTree.Rel (DieShows info x.sizes) t.seen (x.placed off) ∧
    t.seen.map Seen.off = x.offsets off ∧ u.rootOffset = off + x.rootPos ∧ ∀ c, History u (Refs x off) c → DieGood t c := by
  obtain ⟨u, t, h1, h2, h3, _, _, _, h4, _⟩ := open_unit hx hr hat
  have hm : t.seen.map Seen.off = x.offsets off := treeRel_map (fun a b h => h.1) h3
  refine ⟨u, t, h1, h2, h3, hm, h4, ?_⟩
  have : Refs x off = EntryAt t := by
    funext o
    unfold Refs
    rw [← hm]
    exact propext (tree_all t o)
  intro c hc
  rw [this] at hc
  exact good_history h2 hc

/-- C23. Whatever was visited before, going down from the root gives the entries of the unit in their order and with their children,
each with its tag, its attributes and their values. -/
theorem C23_tree : ∃ u, openUnit info abbr off = .ok u ∧ ∀ c, History u (Refs x off) c → ∀ fuel, enough u ≤ fuel →
    ∃ T s', collect u fuel c.st = .ok (T, s') ∧ DieTree.Rel (DieShows info x.sizes) T (x.placed off) := by
  obtain ⟨u, t, h1, h2, h3, _, _, h5⟩ := client_good hx hr hat
  refine ⟨u, h1, ?_⟩
  intro c hc fuel hf
  obtain ⟨D, hi⟩ := (h5 c hc).inv
  obtain ⟨⟨s', D', e1, _⟩, _⟩ := collect_root h2 hi hf
  exact ⟨_, s', e1, h3⟩

/-- C23. Whatever was visited before, the first child of an entry is the first child in the tree. -/
theorem C23_first : ∃ u, openUnit info abbr off = .ok u ∧ ∀ c, History u (Refs x off) c → ∀ h ∈ c.dies,
    ∃ n, (h.off, n) ∈ (x.offsets off).firsts ∧ ∃ r s', begin u h c.st = .ok (r, s') ∧ r.map Handle.off = n := by
  obtain ⟨u, t, h1, h2, h3, h4, _, h5⟩ := client_good hx hr hat
  refine ⟨u, h1, ?_⟩
  intro c hc h hh
  have hg := h5 c hc
  obtain ⟨D, hi⟩ := hg.inv
  obtain ⟨e1, e2, e3⟩ := hg.dies h hh
  rw [← h4]
  rcases e2 with e2 | ⟨par, g, hm, hg', hgo⟩
  · obtain ⟨rr, hrr⟩ := e3
    rw [e2] at hrr
    have hro := root_cell h2 hi hrr
    have hx := handle_eq e1 e2
    refine ⟨_, (tree_firsts t _ _).2 (.inl ⟨e2, rfl⟩), ?_⟩
    obtain ⟨rt, kids⟩ := t
    cases kids with
    | none => exact ⟨none, c.st, begin_none (s := c.st) (by rw [hx]; exact hrr) hro.2.2.2, rfl⟩
    | some k =>
      have hkm : (rt.off, k) ∈ (Tree.mk rt (some k)).occs := occs_self _ _
      obtain ⟨s', b1, _⟩ := begin_at h2 hi hkm hrr (by rw [hro.2.2.2]; exact h2.2.2.2.2.2.1.symm)
      rw [← (show h = ⟨c.st.epoch, rt.off⟩ from hx)] at b1
      refine ⟨_, s', b1, ?_⟩
      unfold curOf Tree.first
      simp only
      split <;> rfl
  · have hx := handle_eq e1 hgo.symm
    refine ⟨_, (tree_firsts t _ _).2 (.inr ⟨par, g, hm, hg', hgo, rfl⟩), ?_⟩
    rcases enter h2 hi hm hg' (by rw [hgo]; exact e3) with ⟨e, rest, rfl, hb⟩ | ⟨e, k, rest, rfl, s', b1, _⟩
    · rw [← hx] at hb
      exact ⟨none, c.st, hb, rfl⟩
    · rw [← hx] at b1
      refine ⟨_, s', b1, ?_⟩
      unfold curOf PF.first
      simp only
      split <;> rfl

/-- C23. Whatever was visited before, an iterator goes on to the entry that follows among the siblings, and ends after the last. -/
theorem C23_next : ∃ u, openUnit info abbr off = .ok u ∧ ∀ c, History u (Refs x off) c → ∀ p k, (p, k) ∈ c.iters → ∀ fuel, enough u ≤ fuel →
    ∃ n, (p.off, k.off, n) ∈ (x.offsets off).steps ∧ ∃ r s', next u fuel k p c.st = .ok (r, s') ∧ r.map Handle.off = n := by
  obtain ⟨u, t, h1, h2, h3, h4, _, h5⟩ := client_good hx hr hat
  refine ⟨u, h1, ?_⟩
  intro c hc p k hk fuel hf
  have hg := h5 c hc
  obtain ⟨D, hi⟩ := hg.inv
  obtain ⟨e1, e2, e3, e4, g, hm, hg', hgo⟩ := hg.iters p k hk
  rw [← h4]
  refine ⟨_, (tree_steps t _ _ _).2 ⟨g, hm, hg', hgo, rfl⟩, ?_⟩
  have hfuel : g.sz ≤ fuel := by
    have := sz_stop (tree_laid h2 hm)
    unfold enough at hf
    omega
  obtain ⟨s', D', n1, _⟩ := next_at h2 hi hm e3 hg' (by rw [hgo]; exact e4) hfuel
  rw [← handle_eq e1 rfl, ← handle_eq e2 hgo.symm] at n1
  refine ⟨_, s', n1, ?_⟩
  unfold curOf
  split <;> rfl

/-- C23. What a program sees of an entry it has got hold of, in whatever way, is what the unit has there. -/
theorem C23_seen : ∃ u, openUnit info abbr off = .ok u ∧ ∀ c, History u (Refs x off) c → ∀ h ∈ c.dies,
    ∃ e v, (h.off, e) ∈ (x.placed off).all ∧ seen c.st h = .ok v ∧ DieShows info x.sizes v (h.off, e) := by
  obtain ⟨u, t, h1, h2, h3, h4, _, h5⟩ := client_good hx hr hat
  refine ⟨u, h1, ?_⟩
  intro c hc h hh
  have hg := h5 c hc
  obtain ⟨D, hi⟩ := hg.inv
  obtain ⟨e1, e2, e3⟩ := hg.dies h hh
  obtain ⟨v, s1, s2⟩ := seen_at hi e3
  obtain ⟨⟨o, e⟩, m1, m2⟩ := treeRel_mem h3 v (ent_mem s2)
  have ho : o = h.off := by rw [← s2.1]; exact m2.1.symm
  subst ho
  refine ⟨e, v, m1, ?_, m2⟩
  rw [← handle_eq e1 rfl] at s1
  exact s1

/-- C24. Whatever was visited before and however the entry was reached, the parent reported for an entry is the entry around it. -/
theorem C24_parent : ∃ u, openUnit info abbr off = .ok u ∧ ∀ c, History u (Refs x off) c → ∀ h ∈ c.dies, ∀ p, (p, h.off) ∈ (x.offsets off).withParent →
    ∀ fuel, enough u ≤ fuel → ∃ s', getParentOffset u fuel h c.st = .ok (p, s') := by
  obtain ⟨u, t, h1, h2, h3, h4, _, h5⟩ := client_good hx hr hat
  refine ⟨u, h1, ?_⟩
  intro c hc h hh p hp fuel hf
  have hg := h5 c hc
  obtain ⟨D, hi⟩ := hg.inv
  obtain ⟨e1, e2, e3⟩ := hg.dies h hh
  rw [← h4] at hp
  obtain ⟨g, m1, m2, m3⟩ := (tree_withParent t p h.off).1 hp
  obtain ⟨s', D', n1, _⟩ := parent_at h2 hi m1 m2 (by rw [m3]; exact e3) hf
  rw [← handle_eq e1 m3.symm] at n1
  exact ⟨s', n1⟩

/-- C24. The root has no parent, and it is the only one of the entries. -/
theorem C24_root : ∃ u, openUnit info abbr off = .ok u ∧ ∀ c, History u (Refs x off) c → ∀ h ∈ c.dies,
    (h.off = off + x.rootPos → ∀ fuel, getParentOffset u fuel h c.st = .ok (0, c.st)) ∧
    (h.off ≠ off + x.rootPos → ∃ p, (p, h.off) ∈ (x.offsets off).withParent) := by
  obtain ⟨u, t, h1, h2, h3, h4, h6, h5⟩ := client_good hx hr hat
  refine ⟨u, h1, ?_⟩
  intro c hc h hh
  have hg := h5 c hc
  obtain ⟨D, hi⟩ := hg.inv
  obtain ⟨e1, e2, e3⟩ := hg.dies h hh
  have hroot : t.root.off = off + x.rootPos := by rw [← h6]; exact h2.1
  constructor
  · intro ho fuel
    have := parent_root h2 hi (by rw [hroot, ← ho]; exact e3) fuel
    rw [← handle_eq e1 (by rw [hroot]; exact ho)] at this
    exact this
  · intro ho
    rcases e2 with e2 | ⟨par, g, hm, hg', hgo⟩
    · exact absurd (e2.trans hroot) ho
    · exact ⟨par, by rw [← h4]; exact (tree_withParent t par h.off).2 ⟨g, hm, hg', hgo⟩⟩

/-- C23. Whatever was visited before, following a reference to an entry gets hold of that entry. -/
theorem C23_ref : ∃ u, openUnit info abbr off = .ok u ∧ ∀ c, History u (Refs x off) c → ∀ o ∈ (x.offsets off).all,
    ∃ h s', offsetToDIE u none o c.st = .ok (some h, s') ∧ h.off = o ∧ History u (Refs x off) ⟨s', h :: c.dies, c.iters⟩ := by
  obtain ⟨u, t, h1, h2, h3, h4, h6, h5⟩ := client_good hx hr hat
  refine ⟨u, h1, ?_⟩
  intro c hc o ho
  obtain ⟨D, hi⟩ := (h5 c hc).inv
  have ho' := ho
  rw [← h4, tree_all] at ho'
  rcases ho' with e | ⟨par, g, hm, hg, hgo⟩
  · obtain ⟨s', g1, _⟩ := goto_root h2 hi
    unfold root at g1
    rw [← h2.1, ← e] at g1
    exact ⟨_, s', g1, rfl, .step hc (.ref ho g1)⟩
  · obtain ⟨s', g1, _⟩ := goto_entry h2 hi hm hg none (fun x hx => nomatch hx)
    rw [hgo] at g1
    exact ⟨_, s', g1, rfl, .step hc (.ref ho g1)⟩

end

/-! ### A unit -/

/-- A unit of version 5: a root, a function with a sibling attribute that has a block with a variable in it and another variable, a block
without a sibling attribute and without children, a variable. -/
def sampleRoot : DieDecl := ⟨1, 0x11, true, [⟨0x03, 0x08, 0⟩, ⟨0x11, 0x01, 0⟩]⟩
def sampleFunc : DieDecl := ⟨2, 0x2e, true, [⟨0x01, 0x13, 0⟩, ⟨0x03, 0x0e, 0⟩, ⟨0x12, 0x0f, 0⟩, ⟨0x40, 0x18, 0⟩]⟩
def sampleBlock : DieDecl := ⟨3, 0x0b, true, []⟩
def sampleVar : DieDecl := ⟨4, 0x34, false, [⟨0x03, 0x08, 0⟩, ⟨0x3b, 0x21, -5⟩, ⟨0x3f, 0x19, 0⟩, ⟨0x1c, 0x0d, 0⟩]⟩

def sampleVarEntry (c : Byte) : DieEntry := ⟨sampleVar, [.str [c], .int (-5), .flag 1, .int (-3)]⟩

def sampleDies : DieTree DieEntry :=
  ⟨⟨sampleRoot, [.str [0x61#8], .num 0x401000]⟩, some
    (.node ⟨sampleFunc, [.num 46, .num 7, .num 100, .block [0x9c#8]]⟩
      (.node ⟨sampleBlock, []⟩ (.leaf (sampleVarEntry 0x78#8) .done) (.leaf (sampleVarEntry 0x79#8) .done))
      (.node ⟨sampleBlock, []⟩ .done (.leaf (sampleVarEntry 0x7a#8) .done)))⟩

def sampleUnit : DieUnit := ⟨false, 5, 1, 8, [], 0, [sampleRoot, sampleFunc, sampleBlock, sampleVar], sampleDies, []⟩

theorem encodeS_small (z : Int) (h : -64 ≤ z ∧ z < 64) : encodeS z = [BitVec.ofInt 8 (z % 128)] := by
  rw [encodeS, if_pos h]

theorem sampleUnit_wf : sampleUnit.WF := by
  refine ⟨by decide, fun _ => .inl (by decide), by decide, (fun h => by cases h), by decide, ?_, by decide, ?_⟩
  · intro a ha
    simp only [sampleUnit, List.mem_cons, List.not_mem_nil, or_false] at ha
    rcases ha with rfl | rfl | rfl | rfl <;> refine ⟨by decide, by decide, ?_⟩ <;> intro b hb <;>
      simp only [sampleRoot, sampleFunc, sampleBlock, sampleVar, List.mem_cons, List.not_mem_nil, or_false] at hb
    · rcases hb with rfl | rfl <;> exact ⟨by decide, by decide, by decide⟩
    · rcases hb with rfl | rfl | rfl | rfl <;> exact ⟨by decide, by decide, by decide⟩
    · rcases hb with rfl | rfl | rfl | rfl <;> exact ⟨by decide, by decide, by decide⟩
  · simp [sampleUnit, sampleDies, sampleRoot, sampleFunc, sampleBlock, sampleVar, sampleVarEntry, DieUnit.sizes, DieUnit.rootPos, DieUnit.lengthField,
      DieUnit.header, DieUnit.offSize, DieTree.WF, Forest.WF, ValsFit, AttrFits, DieTree.encode, Forest.encode, DieEntry.encode, encodeVals, formKind,
      FormKind.encode, FormKind.Fits, IsLocalRef, encodeU_small, encodeS_small, leBytes_length, GoodName]

theorem sampleUnit_readable : UnitReadable sampleUnit := by
  refine ⟨?_, by decide, (fun h => by cases h)⟩
  simp [sampleUnit, DieUnit.body, sampleDies, sampleRoot, sampleFunc, sampleBlock, sampleVar, sampleVarEntry, DieUnit.sizes,
      DieUnit.header, DieUnit.offSize, DieTree.encode, Forest.encode, DieEntry.encode, encodeVals, formKind,
      FormKind.encode, encodeU_small, encodeS_small, leBytes_length]

theorem sampleUnit_at : At (sampleUnit.encode ++ [1#8, 2#8]) (encodeDecls sampleUnit.decls) 0 sampleUnit := by
  refine ⟨⟨_, rfl⟩, ⟨[], by simp [sampleUnit]⟩, ?_, ?_⟩
  · have := sampleUnit_readable.size
    have h : sampleUnit.fmt64 = false := rfl
    rw [h] at this
    simp only [List.length_append, DieUnit.encode, DieUnit.lengthField, h, leBytes_length, Bool.false_eq_true, if_false] at this ⊢
    simp; omega
  · simp [sampleUnit, encodeDecls, DieDecl.encode, AttrDecl.encode, sampleRoot, sampleFunc, sampleBlock, sampleVar, encodeU_small, encodeS_small]

/-- Where its entries are: the root at 12, the function at 23 and so on. -/
theorem sampleUnit_offsets : sampleUnit.offsets 0 = ⟨12, some (.node 23 (.node 35 (.leaf 36 .done) (.leaf 41 .done)) (.node 46 .done (.leaf 48 .done)))⟩ := by
  simp [sampleUnit, sampleDies, sampleRoot, sampleFunc, sampleBlock, sampleVar, sampleVarEntry, DieUnit.sizes, DieUnit.rootPos, DieUnit.lengthField,
      DieUnit.header, DieUnit.offSize, DieUnit.offsets, DieUnit.placed, DieTree.map, DieTree.place, Forest.place, Forest.map, Forest.encode, DieEntry.encode, encodeVals, formKind,
      FormKind.encode, encodeU_small, encodeS_small, leBytes_length]

/-- The theorems apply to it: the variable at 36 can be got by a reference before anything else, its parent is the block at 35, and
after that the tree is seen as it is. -/
theorem C24_example : ∃ u, openUnit (sampleUnit.encode ++ [1#8, 2#8]) (encodeDecls sampleUnit.decls) 0 = .ok u ∧
    ∃ h s, offsetToDIE u none 36 State.empty = .ok (some h, s) ∧ (∃ s1, getParentOffset u (enough u) h s = .ok (35, s1) ∧
      ∃ T s2, collect u (enough u) s1 = .ok (T, s2) ∧
        T.map Seen.off = ⟨12, some (.node 23 (.node 35 (.leaf 36 .done) (.leaf 41 .done)) (.node 46 .done (.leaf 48 .done)))⟩) := by
  obtain ⟨u, h1, h2⟩ := C23_ref sampleUnit_wf sampleUnit_readable sampleUnit_at
  obtain ⟨u', h1', h3⟩ := C24_parent sampleUnit_wf sampleUnit_readable sampleUnit_at
  obtain ⟨u'', h1'', h4⟩ := C23_tree sampleUnit_wf sampleUnit_readable sampleUnit_at
  rw [h1] at h1' h1''
  injection h1' with e; subst e
  injection h1'' with e; subst e
  refine ⟨u, h1, ?_⟩
  obtain ⟨h, s, g1, g2, g3⟩ := h2 _ .start 36 (by rw [sampleUnit_offsets]; decide)
  refine ⟨h, s, g1, ?_⟩
  obtain ⟨s1, k1⟩ := h3 _ g3 h List.mem_cons_self 35 (by rw [sampleUnit_offsets, g2]; decide) (enough u) (Nat.le_refl _)
  refine ⟨s1, k1, ?_⟩
  obtain ⟨T, s2, j1, j2⟩ := h4 _ (.step g3 (.parent List.mem_cons_self (Nat.le_refl _) k1)) (enough u) (Nat.le_refl _)
  refine ⟨T, s2, j1, ?_⟩
  rw [← sampleUnit_offsets]
  exact treeRel_map (fun a b h => h.1) j2

/-! ### What does not hold -/

/-- C23: a form the standard has and the library does not makes the entry, and so the walk over its siblings, fail: DW_FORM_data16,
DW_FORM_indirect, DW_FORM_ref_sup4, DW_FORM_ref_sup8, DW_FORM_strp_sup. -/
theorem C23_not_forms (d : List Byte) (u : Die.Unit) (f : FormEntry) (h : f.form = 0x1e ∨ f.form = 0x16 ∨ f.form = 0x1c ∨ f.form = 0x24 ∨ f.form = 0x1d) (off : Nat) :
    readValue d u f off = .exc ∧ (formKind f.form).isSome := by
  obtain ⟨form, value⟩ := f
  rcases h with h | h | h | h | h <;> (simp only at h; subst h; exact ⟨rfl, rfl⟩)

/-- C23: an abbreviation code that is not in the table is not an error but a use of a null pointer. -/
theorem C23_not_abbreviation (u : Die.Unit) (off p : Nat) (code : BitVec 64) (h : getuleb128 u.info off = .ok (code, p)) (h0 : code ≠ 0)
    (hn : ∀ e ∈ u.abbrevs, e.1 ≠ code.toNat) : scan u off = .ub := by
  unfold scan
  rw [h, Res.bind_ok]
  simp only
  rw [if_neg h0]
  have : findAbbrev u.abbrevs code.toNat = none := by
    unfold findAbbrev
    rw [List.find?_eq_none.2 (fun e he => by simpa using hn e he)]; rfl
  rw [this]

/-- C23: the header of a type unit (version 5, type 2) has a signature and an offset after the fields of other units. They are taken
for the root: the unit is not read at all. -/
theorem C23_not_typeUnit (d rest : List Byte) (off len addrSize abbrevPos signature typeOff : Nat) (entries : List Byte) (h1 : len < 0xfffffff0) (h2 : addrSize < 256)
    (h3 : abbrevPos < 2 ^ 32) (hd : d.drop off = leBytes 4 len ++ (leBytes 2 5 ++ (leBytes 1 2 ++ (leBytes 1 addrSize ++ (leBytes 4 abbrevPos ++
      (leBytes 8 signature ++ (leBytes 4 typeOff ++ (entries ++ rest)))))))) :
    ∃ h p, readHeader d off = .ok (h, p) ∧ d.drop h.rootOffset = leBytes 8 signature ++ (leBytes 4 typeOff ++ (entries ++ rest)) := by
  have go : ∀ o, getOffset o = .ok (o, o) := fun _ => rfl
  have h4 := drop_prefix hd
  have h5 := drop_prefix h4
  have hrest : Reads d (readHeaderRest d 5 4) (leBytes 1 2 ++ (leBytes 1 addrSize ++ leBytes 4 abbrevPos)) (addrSize, abbrevPos) := by
    unfold readHeaderRest
    rw [if_pos (by decide)]
    refine (reads_byte 2).bind ?_
    refine Reads.bind (d := d) (f := fun addrlen : Byte => do
        let abbrevOffset ← getuint d 4
        pure (addrlen.toNat, abbrevOffset.toNat)) (reads_byte addrSize) ?_
    have := (reads_uint (d := d) 4 abbrevPos (by decide) h3).map (f := fun o => ((BitVec.ofNat 8 addrSize).toNat, o.toNat))
    rw [show (BitVec.ofNat 8 addrSize).toNat = addrSize by simp; omega, word64 _ (by omega)] at this
    rw [show (BitVec.ofNat 8 addrSize).toNat = addrSize by simp; omega]
    exact this
  have h6 : d.drop (off + (leBytes 4 len).length + (leBytes 2 5).length) = (leBytes 1 2 ++ (leBytes 1 addrSize ++ leBytes 4 abbrevPos)) ++
      (leBytes 8 signature ++ (leBytes 4 typeOff ++ (entries ++ rest))) := by
    rw [h5]; simp only [List.append_assoc]
  have hl : getlength d off = .ok ((len, 4), off + (leBytes 4 len).length) := by
    rw [getlength_32 d _ len off h1 hd, leBytes_length]
  refine ⟨⟨off, (off + (leBytes 4 len).length + len % 2 ^ 32) % W64, 5, 4, addrSize, abbrevPos,
      off + (leBytes 4 len).length + (leBytes 2 5).length + (leBytes 1 2 ++ (leBytes 1 addrSize ++ leBytes 4 abbrevPos)).length⟩,
    off + (leBytes 4 len).length + (leBytes 2 5).length + (leBytes 1 2 ++ (leBytes 1 addrSize ++ leBytes 4 abbrevPos)).length, ?_, ?_⟩
  · unfold readHeader
    rw [Parse.bind_ok (go off), Parse.bind_ok hl]
    simp only
    rw [Parse.bind_ok (go _), Parse.bind_ok (reads_u16 5 (by decide) _ _ h4)]
    simp only [show (BitVec.ofNat 16 5).toNat = 5 from rfl]
    rw [show (if 5 ≤ 2 then 8 else 4) = 4 from rfl, Parse.bind_ok (hrest _ _ h6)]
    rfl
  · exact drop_prefix h6

/-- A unit with a root, an entry with a child, and an entry after that, none with attributes. -/
def staleUnit : Die.Unit :=
  ⟨[0#8, 1#8, 1#8, 2#8, 0#8, 2#8, 0#8], 0, 7, 5, 4, 8, 1, [(1, ⟨0x2e, true, [], [], none⟩), (2, ⟨0x34, false, [], [], none⟩)]⟩

/-- The entry a result has. -/
def theDie : Option Handle → Res Handle
  | some h => .ok h
  | none => .exc

/-- C23: entries kept over a `purge` damage the ones decoded after it. An iterator from before the call finishes its step (to the entry
at 5); after it a new iterator at the same entry does not find the entry that follows. -/
theorem C23_not_purge : (do
    let (r, s) ← root staleUnit State.empty
    let r ← theDie r
    let (p, s) ← begin staleUnit r s
    let p ← theDie p
    let s := purge s
    let (r', s) ← root staleUnit s
    let r' ← theDie r'
    let (p', s) ← begin staleUnit r' s
    let p' ← theDie p'
    let (_, s) ← begin staleUnit p' s
    let (q, s) ← next staleUnit (enough staleUnit) p r s
    let (q', _) ← next staleUnit (enough staleUnit) p' r' s
    Res.ok (q.map Handle.off, q'.map Handle.off)) = .ok (some 5, none) := by decide +kernel

/-- Without the kept iterator the entry is found. -/
theorem C23_example_purge : (do
    let (r, s) ← root staleUnit State.empty
    let r ← theDie r
    let (_, s) ← begin staleUnit r s
    let s := purge s
    let (r', s) ← root staleUnit s
    let r' ← theDie r'
    let (p', s) ← begin staleUnit r' s
    let p' ← theDie p'
    let (_, s) ← begin staleUnit p' s
    let (q', _) ← next staleUnit (enough staleUnit) p' r' s
    Res.ok (q'.map Handle.off)) = .ok (some 5) := by decide +kernel

/-- C24: an entry got by a reference and kept over a `purge` is said to have no parent, although it is below the one at 2. -/
theorem C24_not_purge : (do
    let (c, s) ← offsetToDIE staleUnit none 3 State.empty
    let c ← theDie c
    let s := purge s
    let (o, _) ← getParentOffset staleUnit (enough staleUnit) c s
    Res.ok o) = .ok 0 ∧ (do
    let (c, s) ← offsetToDIE staleUnit none 3 State.empty
    let c ← theDie c
    let (o, _) ← getParentOffset staleUnit (enough staleUnit) c s
    Res.ok o) = .ok 2 := by decide +kernel

end Pstack.Props
