import Verif.Proof.StackText
import Verif.Props.FindEntry
/-
Property theorems C80 and C81: the text of a frame and of a stack (Spec/StackText.lean), after any history.
-/
namespace Pstack.Props
open Pstack.Reader Pstack.Spec Pstack.Dwarf Pstack.Die Pstack.Args Pstack.Lines Pstack.StackText

/-- A `DIE` the program has is this entry, or it has none. -/
def FunctionIs (d : Sections) (xs : List DieUnit) (cl : IClient) : Option DIE → Option EntryRef → Prop
  | none, none => True
  | some y, some p => cl.Holds d y ∧ IsEntry d xs y p.uo p.x p.o p.e
  | _, _ => False

theorem entry_one {d : Sections} {xs : List DieUnit} (hok : InfoOk d xs) {y : DIE} {p q : EntryRef} (h : IsEntry d xs y p.uo p.x p.o p.e) (h' : IsEntry d xs y q.uo q.x q.o q.e) : p = q := by
  obtain ⟨a1, b1, c1, e1⟩ := p
  obtain ⟨a2, b2, c2, e2⟩ := q
  obtain ⟨h1, h2, h3, h4⟩ := h
  obtain ⟨h1', h2', h3', h4'⟩ := h'
  simp only at *
  obtain ⟨u, _, hu⟩ := opened hok h3
  obtain ⟨u', _, hu'⟩ := opened hok h3'
  have e1 : u = y.unit := by have := hu.isOpen; rw [h1] at this; injection this with this; exact this.symm
  have e2 : u' = y.unit := by have := hu'.isOpen; rw [h1'] at this; injection this with this; exact this.symm
  subst e1
  have : a1 = a2 := by rw [← hu.off, ← hu'.off, e2]
  subst this
  cases same_unit h3 h3'
  subst h2
  subst h2'
  cases placed_inj h4 h4'
  rfl

theorem function_good {d : Sections} {xs : List DieUnit} (hok : InfoOk d xs) (hrefs : RefsOk xs) {cl : IClient} (hc : IHistory d xs cl) : ∀ {y : Option DIE} {p : Option EntryRef},
    FunctionIs d xs cl y p → DieIs d xs cl.st y p
  | none, none, _ => trivial
  | some y, some p, h => by
    obtain ⟨uo, x, o, e, hg⟩ := holds_good hok (igood_history hok hrefs hc) h.1
    cases entry_one hok h.2 (q := ⟨uo, x, o, e⟩) hg.isEntry
    exact hg
  | none, some _, h => h.elim
  | some _, none, h => h.elim

section
variable {q : ObjDwarf} {xs : List DieUnit} (hob : ObjOk q xs) {cl : IClient} (hc : IHistory q.d xs cl) {o : TextOpts} {f : FrameIn} {g : FrameFacts} {fs : FrameState} (hfg : FrameFor f g)
  (hcx : FrameIs f.ctx fs) (hd : FunctionIs q.d xs cl f.die g.fn) {no : Nat}
include hob hc hfg hcx hd

/-- C80. A frame is shown in a line for each function that is inlined where it is, the innermost first, and a line for the function: with its number, the program counter, the qualified name, the
arguments, the offset, the object, and the place in the source: for the innermost that of the address, for the others where they call the one before.
Missing: inlined functions when places in sources are not shown or not known (`C80_not_newline`, `C80_not_lines`, `C80_not_source`), and what C76, C77, C78, C79 and C27 miss. -/
theorem C80_frame_partial {t : List Byte} (h : FrameText knowsSome Supported q.d xs q.line fs (shows o) no g t) :
    ∃ m, ∀ fuel, m ≤ fuel → ∃ s', frameText q fuel o no f cl.st = .ok (t, s') := by
  obtain ⟨m, hm⟩ := frame_shown hob.ok hob.fit hob.refs hob.bases rfl hob.line hcx h
  refine ⟨m, fun fuel hf => ?_⟩
  obtain ⟨s', k, _⟩ := hm fuel hf f hfg rfl cl.st (igood_history hob.ok hob.refs hc).st (ranges_history hob.ok hob.fit hob.refs hc) (function_good hob.ok hob.refs hc hd)
  exact ⟨s', k⟩

/-- Inlined functions have these names. -/
inductive AreDeclared (d : Sections) (xs : List DieUnit) (uo : Nat) (x : DieUnit) : List (Nat × DieEntry) → List (List Byte) → Prop
  | nil : AreDeclared d xs uo x [] []
  | cons {a as l nm ns} : DeclaredAs d xs uo x a.1 a.2 l nm → (∀ p ∈ l, p.1 ≠ 0x17) → AreDeclared d xs uo x as ns → AreDeclared d xs uo x (a :: as) (qualified l nm :: ns)

/-- C80 does not hold for inlined functions when places in sources are not to be shown (`nosrc`): the line for an inlined function is not ended, and that for the function is on the same line. -/
theorem C80_not_newline {p : EntryRef} {object args : List Byte} {l : List (Nat × List Byte)} {nm : List Byte} {offset : Option Nat} {F : Forest (Nat × DieEntry)} {as : List (Nat × DieEntry)}
    {ns : List (List Byte)} (hno : (shows o).sources = false) (h1 : g.object = some object) (h2 : g.looked (shows o) = some p) (h3 : DeclaredAs q.d xs p.uo p.x p.o p.e l nm) (h4 : ∀ q ∈ l, q.1 ≠ 0x17)
    (h5 : FnOffset q.d xs g (some p) offset) (h6 : (p.x.placed p.uo).KidsOf (p.o, p.e) F) (h7 : ∀ b ∈ (p.o, p.e) :: F.all, Told q.d xs p.uo p.x g.addr.toNat b)
    (h8 : InlineChain q.d xs p.uo p.x g.addr.toNat (p.o, p.e) F as) (h9 : FnArgs knowsSome q.d xs (shows o) fs g.fn args) (h10 : AreDeclared q.d xs p.uo p.x as.reverse ns) :
    ∃ m, ∀ fuel, m ≤ fuel → ∃ s', frameText q fuel o no f cl.st =
      .ok ((ns.map (fun n => frameNumber no ++ (asciiText "inlined            in " ++ n))).flatten ++ functionLine (shows o) no g object (g.shownName (qualified l nm)) args offset none, s') := by
  have hno : o.nosrc = true := by simpa [shows] using hno
  have key : ∀ {as : List (Nat × DieEntry)} {ns : List (List Byte)}, AreDeclared q.d xs p.uo p.x as ns → ∃ m, ∀ fuel, m ≤ fuel → ∀ zs s src, ISt q.d xs s → GoodDies q.d xs s p.uo p.x zs as →
      ∃ s', inlinedText q fuel o no zs src s = .ok (((ns.map (fun n => frameNumber no ++ (asciiText "inlined            in " ++ n))).flatten, src), s') ∧ Kept q.d xs s s' := by
    intro as ns h
    induction h with
    | nil =>
      refine ⟨0, fun fuel _ zs s src hs hz => ?_⟩
      cases zs with
      | nil => exact ⟨s, rfl, Kept.refl hs⟩
      | cons => exact hz.elim
    | @cons a as l nm ns a1 a2 _ ih =>
      obtain ⟨m, ih⟩ := ih
      obtain ⟨m1, a1⟩ := declared_built hob.ok hob.fit a1
      refine ⟨m + m1 + 1, fun fuel hf zs s src hs hz => ?_⟩
      cases zs with
      | nil => exact hz.elim
      | cons z zs =>
        obtain ⟨s1, k1, k2⟩ := a1 fuel fuel (by omega) (by omega) z s hs hz.1
        obtain ⟨s2, j1, j2⟩ := ih fuel (by omega) zs s1 src k2.1 (hz.2.extR k2.2.1)
        refine ⟨s2, ?_, k2.trans j2⟩
        have hun : withoutUnions l = l := by
          unfold withoutUnions
          exact List.filter_eq_self.2 (fun p hp => by simpa using a2 p hp)
        rw [inlinedText, k1, Res.bind_ok]
        simp only
        unfold inlinedAtText
        rw [hno]
        simp only [if_true]
        rw [Res.bind_ok]
        simp only
        rw [j1, Res.bind_ok, hun, numberText_eq]
        simp only [List.map_cons, List.flatten_cons, ← inlined_width, List.append_assoc, List.nil_append]
  obtain ⟨m, hm⟩ := frame_rest hob.ok hob.fit hob.refs hob.bases rfl hfg hcx (no := no) h1 h2 h3 h4 h5 h6 h7 h8 h9
    (text := (ns.map (fun n => frameNumber no ++ (asciiText "inlined            in " ++ n))).flatten) (pl := none) (by
      obtain ⟨m, hm⟩ := key h10
      refine ⟨m, fun fuel hf zs s hs hz => ?_⟩
      obtain ⟨s', k1, k2⟩ := hm fuel hf zs s (firstSource o f.source) hs hz
      refine ⟨_, s', k1, ?_, k2⟩
      unfold firstSource
      rw [hno]
      rfl)
  refine ⟨m, fun fuel hf => ?_⟩
  exact hm fuel hf cl.st (igood_history hob.ok hob.refs hc).st (ranges_history hob.ok hob.fit hob.refs hc) (function_good hob.ok hob.refs hc hd)

/-- C80 does not hold for inlined functions when the place in the source is not known: the innermost is shown as being at the line -1 of a file with no name. -/
theorem C80_not_source {p : EntryRef} {object args sec : List Byte} {l : List (Nat × List Byte)} {nm : List Byte} {offset : Option Nat} {F : Forest (Nat × DieEntry)} {as : List (Nat × DieEntry)}
    {t : LineTable} {is : List InlinedFn} (hno : (shows o).sources) (hs : g.source = none) (h1 : g.object = some object) (h2 : g.looked (shows o) = some p)
    (h3 : DeclaredAs q.d xs p.uo p.x p.o p.e l nm) (h4 : ∀ q ∈ l, q.1 ≠ 0x17)
    (h5 : FnOffset q.d xs g (some p) offset) (h6 : (p.x.placed p.uo).KidsOf (p.o, p.e) F) (h7 : ∀ b ∈ (p.o, p.e) :: F.all, Told q.d xs p.uo p.x g.addr.toNat b)
    (h8 : InlineChain q.d xs p.uo p.x g.addr.toNat (p.o, p.e) F as) (h9 : FnArgs knowsSome q.d xs (shows o) fs g.fn args) (hsec : q.line = some sec) (hl : LinesOf q.d sec p.x t) (hp : t.Plain Supported)
    (h10 : InlinedAs q.d xs t.tables (shows o).detail p.uo p.x as is) (hne : is ≠ []) (hcall : ∀ i ∈ is, i.call.file ≠ []) :
    ∃ m, ∀ fuel, m ≤ fuel → ∃ s', frameText q fuel o no f cl.st =
      .ok (inlinedLines no ⟨[], -1⟩ is.reverse ++ functionLine (shows o) no g object (g.shownName (qualified l nm)) args offset (some (outermost ⟨[], -1⟩ is.reverse)), s') := by
  have hno : o.nosrc = false := by simpa [shows] using hno
  have hf0 : firstSource o f.source = ([], BitVec.allOnes 32) := by
    have := hfg.source
    rw [hs] at this
    unfold firstSource
    rw [hno]
    generalize f.source = r at this
    cases r with
    | nil => rfl
    | cons => exact this.elim
  have hlast : (outermost ⟨[], -1⟩ is.reverse).file ≠ [] := by
    have key : ∀ (l : List InlinedFn) (h : SourceLine), (l = [] → h.file ≠ []) → (∀ i ∈ l, i.call.file ≠ []) → (outermost h l).file ≠ [] := by
      intro l
      induction l with
      | nil => intro h h1 _; exact h1 rfl
      | cons i l ih => intro h _ h2; exact ih i.call (fun _ => h2 i List.mem_cons_self) (fun j hj => h2 j (List.mem_cons_of_mem _ hj))
    exact key _ _ (fun h => absurd (List.reverse_eq_nil_iff.1 h) hne) (fun i hi => hcall i (List.mem_reverse.1 hi))
  obtain ⟨m, hm⟩ := frame_rest hob.ok hob.fit hob.refs hob.bases rfl hfg hcx (no := no) h1 h2 h3 h4 h5 h6 h7 h8 h9
    (text := inlinedLines no ⟨[], -1⟩ is.reverse) (pl := some (outermost ⟨[], -1⟩ is.reverse)) (by
      obtain ⟨m, hm⟩ := inlined_shown hob.ok hob.fit rfl hsec (hob.line sec hsec) (declared_unit h3) hl hp hno no (inlinedAs_reverse h10)
      refine ⟨m, fun fuel hf zs s hs hz => ?_⟩
      obtain ⟨src', s', k1, k2, k3⟩ := hm fuel hf zs s (firstSource o f.source) ⟨[], -1⟩ hs hz (by rw [hf0]; exact ⟨rfl, rfl⟩)
      refine ⟨_, s', k1, ?_, k3⟩
      rw [if_pos (by rw [k2.1]; exact hlast), atText_eq k2]; rfl)
  refine ⟨m, fun fuel hf => ?_⟩
  exact hm fuel hf cl.st (igood_history hob.ok hob.refs hc).st (ranges_history hob.ok hob.fit hob.refs hc) (function_good hob.ok hob.refs hc hd)

/-- C80 does not hold for inlined functions if the unit does not say where its lines are: again lines are not ended; and the function is shown to be at the place of the innermost function. -/
theorem C80_not_lines {p : EntryRef} {object args : List Byte} {l : List (Nat × List Byte)} {nm : List Byte} {offset : Option Nat} {F : Forest (Nat × DieEntry)} {as : List (Nat × DieEntry)}
    {ns : List (List Byte)} {here : SourceLine} (hno : (shows o).sources) (hs : g.source = some here) (hfile : here.file ≠ []) (hroot : p.x.tree.root.find 0x10 = none ∧ p.x.tree.root.find 0x31 = none ∧ p.x.tree.root.find 0x47 = none) (h1 : g.object = some object)
    (h2 : g.looked (shows o) = some p) (h3 : DeclaredAs q.d xs p.uo p.x p.o p.e l nm) (h4 : ∀ q ∈ l, q.1 ≠ 0x17)
    (h5 : FnOffset q.d xs g (some p) offset) (h6 : (p.x.placed p.uo).KidsOf (p.o, p.e) F) (h7 : ∀ b ∈ (p.o, p.e) :: F.all, Told q.d xs p.uo p.x g.addr.toNat b)
    (h8 : InlineChain q.d xs p.uo p.x g.addr.toNat (p.o, p.e) F as) (h9 : FnArgs knowsSome q.d xs (shows o) fs g.fn args) (h10 : AreDeclared q.d xs p.uo p.x as.reverse ns) :
    ∃ m, ∀ fuel, m ≤ fuel → ∃ s', frameText q fuel o no f cl.st =
      .ok ((ns.map (fun n => frameNumber no ++ (asciiText "inlined            in " ++ n))).flatten ++ functionLine (shows o) no g object (g.shownName (qualified l nm)) args offset (some here), s') := by
  have hno : o.nosrc = false := by simpa [shows] using hno
  have key : ∀ {as : List (Nat × DieEntry)} {ns : List (List Byte)}, AreDeclared q.d xs p.uo p.x as ns → ∃ m, ∀ fuel, m ≤ fuel → ∀ zs s src, ISt q.d xs s → GoodDies q.d xs s p.uo p.x zs as →
      ∃ s', inlinedText q fuel o no zs src s = .ok (((ns.map (fun n => frameNumber no ++ (asciiText "inlined            in " ++ n))).flatten, src), s') ∧ Kept q.d xs s s' := by
    intro as ns h
    induction h with
    | nil =>
      refine ⟨0, fun fuel _ zs s src hs hz => ?_⟩
      cases zs with
      | nil => exact ⟨s, rfl, Kept.refl hs⟩
      | cons => exact hz.elim
    | @cons a as l nm ns a1 a2 _ ih =>
      obtain ⟨m, ih⟩ := ih
      obtain ⟨m1, a1⟩ := declared_built hob.ok hob.fit a1
      refine ⟨m + m1 + 1, fun fuel hf zs s src hs hz => ?_⟩
      cases zs with
      | nil => exact hz.elim
      | cons z zs =>
        obtain ⟨s1, k1, k2⟩ := a1 fuel fuel (by omega) (by omega) z s hs hz.1
        obtain ⟨r, s1', g1, g2, g3⟩ := root_good hob.ok k2.1 (declared_unit h3) hz.1.isOpen
        obtain ⟨raw, r1, r2, _⟩ := good_raw hob.ok g2.1 g3
        have hul : unitLines q fuel z.unit s1 = .ok (none, s1') := by
          unfold unitLines
          rw [g1, Res.bind_ok]
          simp only
          rw [r1, Res.bind_ok]
          by_cases ht : raw.type.tag = 0x3c ∨ raw.type.tag = 0x11
          · rw [if_pos ht, getAttr_no hob.ok g2.1 g3 hroot.1 hroot.2.1 hroot.2.2 (by omega) false, Res.bind_ok]
          · rw [if_neg ht]
        have k3 := k2.trans g2
        obtain ⟨s2, j1, j2⟩ := ih fuel (by omega) zs s1' src k3.1 (hz.2.extR k3.2.1)
        refine ⟨s2, ?_, k3.trans j2⟩
        have hun : withoutUnions l = l := by
          unfold withoutUnions
          exact List.filter_eq_self.2 (fun p hp => by simpa using a2 p hp)
        rw [inlinedText, k1, Res.bind_ok]
        simp only
        unfold inlinedAtText
        rw [hno]
        simp only [Bool.false_eq_true, if_false]
        rw [hul, Res.bind_ok]
        simp only [Res.bind_ok]
        rw [j1, Res.bind_ok, hun, numberText_eq]
        simp only [List.map_cons, List.flatten_cons, ← inlined_width, List.append_assoc, List.nil_append]
  obtain ⟨m, hm⟩ := frame_rest hob.ok hob.fit hob.refs hob.bases rfl hfg hcx (no := no) h1 h2 h3 h4 h5 h6 h7 h8 h9
    (text := (ns.map (fun n => frameNumber no ++ (asciiText "inlined            in " ++ n))).flatten) (pl := some here) (by
      obtain ⟨m, hm⟩ := key h10
      refine ⟨m, fun fuel hf zs s hs' hz => ?_⟩
      obtain ⟨s', k1, k2⟩ := hm fuel hf zs s (firstSource o f.source) hs' hz
      have hsrc : SrcIs (firstSource o f.source) here := by
        have := hfg.source
        rw [hs] at this
        unfold firstSource
        rw [hno]
        generalize f.source = r at this
        cases r with
        | nil => exact this.elim
        | cons => exact this
      refine ⟨_, s', k1, ?_, k2⟩
      rw [if_pos (by rw [hsrc.1]; exact hfile), atText_eq hsrc]; rfl)
  refine ⟨m, fun fuel hf => ?_⟩
  exact hm fuel hf cl.st (igood_history hob.ok hob.refs hc).st (ranges_history hob.ok hob.fit hob.refs hc) (function_good hob.ok hob.refs hc hd)

omit hcx in
/-- C80 does not hold if the file an inlined function is called in is not in the table: what is not there is read. -/
theorem C80_not_file {p : EntryRef} {object sec : List Byte} {l : List (Nat × List Byte)} {nm : List Byte} {offset : Option Nat} {F : Forest (Nat × DieEntry)} {as : List (Nat × DieEntry)} {a : Nat × DieEntry}
    {la : List (Nat × List Byte)} {na : List Byte} {t : LineTable} {n : Nat} (hno : (shows o).sources) (h1 : g.object = some object) (h2 : g.looked (shows o) = some p)
    (h3 : DeclaredAs q.d xs p.uo p.x p.o p.e l nm) (h4 : ∀ q ∈ l, q.1 ≠ 0x17)
    (h5 : FnOffset q.d xs g (some p) offset) (h6 : (p.x.placed p.uo).KidsOf (p.o, p.e) F) (h7 : ∀ b ∈ (p.o, p.e) :: F.all, Told q.d xs p.uo p.x g.addr.toNat b)
    (h8 : InlineChain q.d xs p.uo p.x g.addr.toNat (p.o, p.e) F (as ++ [a])) (hsec : q.line = some sec) (hl : LinesOf q.d sec p.x t) (hp : t.Plain Supported)
    (h9 : DeclaredAs q.d xs p.uo p.x a.1 a.2 la na) (h10 : IntOf xs ⟨p.uo, p.x, a.1, a.2⟩ 0x58 (Int.ofNat n)) (h11 : t.tables.fileLimit ≤ n) :
    ∃ m, ∀ fuel, m ≤ fuel → frameText q fuel o no f cl.st = .ub := by
  have hno : o.nosrc = false := by simpa [shows] using hno
  obtain ⟨m1, k1⟩ := printable_chain hob.ok hob.fit hob.refs rfl h1 h2 h3 h4 h5 h6 h7 h8
  obtain ⟨m2, k2⟩ := declared_built hob.ok hob.fit h9
  obtain ⟨m3, k3⟩ := int_of hob.ok (d := q.d) (by decide) h10
  refine ⟨m1 + m2 + m3 + 1, fun fuel hf => ?_⟩
  obtain ⟨off, zs, s1, j1, j2, j3, j4, j5⟩ := k1 fuel (by omega) f hfg cl.st (igood_history hob.ok hob.refs hc).st (ranges_history hob.ok hob.fit hob.refs hc) (function_good hob.ok hob.refs hc hd)
  have hz := goodDies_reverse j5
  rw [List.reverse_append, List.reverse_singleton, List.singleton_append] at hz
  unfold frameText
  rw [j1, Res.bind_ok]
  simp only
  generalize zs.reverse = zs at hz
  cases zs with
  | nil => exact hz.elim
  | cons z zs =>
    obtain ⟨s2, l1, l2⟩ := k2 fuel fuel (by omega) (by omega) z s1 j3.1 hz.1
    obtain ⟨s3, n1, n2⟩ := unitLines_spec hob.ok rfl hsec (hob.line sec hsec) hl hp l2.1 (declared_unit h3) hz.1.isOpen (fuel := fuel) (by omega)
    obtain ⟨b, w, s4, o1, o2, o3, o4⟩ := k3 fuel (by omega) z s3 n2.1 (GoodDie.ext hz.1 (l2.trans n2).2)
    have hw : w.toNat = n := by
      have h2 := BitVec.toInt_eq_toNat_cond w
      have h3 := w.isLt
      rw [o3] at h2
      change (n : Int) = _ at h2
      split at h2 <;> omega
    have hn : (fileTable t.tables)[n]? = none := by
      rw [List.getElem?_eq_none_iff]
      refine Nat.le_trans (Nat.le_of_eq ?_) h11
      unfold fileTable LineTables.fileLimit
      cases t.tables <;> simp [LineTables.sourceFiles] <;> omega
    rw [inlinedText, l1, Res.bind_ok]
    simp only
    unfold inlinedAtText
    rw [hno]
    simp only [Bool.false_eq_true, if_false]
    rw [n1, Res.bind_ok]
    simp only
    unfold callSite fileOf
    rw [o1, Res.bind_ok]
    simp only
    rw [o2, Res.bind_ok, hw, hn]
    rfl

end

/-- The frames are these, each of them in an object of some number. -/
inductive StackIs (objs : Nat → ObjDwarf) (us : Nat → List DieUnit) (cls : Nat → IClient) : List (Nat × FrameIn) → List (Nat × FrameFacts × FrameState) → Prop
  | nil : StackIs objs us cls [] []
  | cons {k f fs g c gs} : FrameFor f g → FrameIs f.ctx c → FunctionIs (objs k).d (us k) (cls k) f.die g.fn → StackIs objs us cls fs gs → StackIs objs us cls ((k, f) :: fs) ((k, g, c) :: gs)

theorem stack_frames {objs : Nat → ObjDwarf} {us : Nat → List DieUnit} (hobj : ∀ k, ObjOk (objs k) (us k)) {cls : Nat → IClient} (hc : ∀ k, IHistory (objs k).d (us k) (cls k))
    {fs : List (Nat × FrameIn)} {gs : List (Nat × FrameFacts × FrameState)} (h : StackIs objs us cls fs gs) : FramesFor objs us (fun k => (cls k).st) fs gs := by
  induction h with
  | nil => exact .nil
  | cons h1 h2 h3 _ ih => exact .cons h1 h2 (function_good (hobj _).ok (hobj _).refs (hc _) h3) ih

/-- C81. A stack is shown as a heading, which says what thread or process it is of, and then its frames, from the innermost on, numbered from 0, whatever was shown before.
Missing: what C80 misses. -/
theorem C81_stack_partial {objs : Nat → ObjDwarf} {us : Nat → List DieUnit} (hobj : ∀ k, ObjOk (objs k) (us k)) {cls : Nat → IClient} (hc : ∀ k, IHistory (objs k).d (us k) (cls k)) {o : TextOpts}
    {fs : List (Nat × FrameIn)} {gs : List (Nat × FrameFacts × FrameState)} (hfs : StackIs objs us cls fs gs) {t : List Byte}
    (ht : FramesText knowsSome Supported (fun k => (objs k).d) us (fun k => (objs k).line) (shows o) 0 gs t) (l : LwpIn) :
    ∃ m, ∀ fuel, m ≤ fuel → ∃ S, stackText objs fuel o l fs (fun k => (cls k).st) = .ok (stackHeading l.thread l.id l.name ++ t, S) := by
  have hf := stack_frames hobj hc hfs
  obtain ⟨m, hm⟩ := frames_shown hobj ht hf
  refine ⟨m, fun fuel hfu => ?_⟩
  obtain ⟨S, k, -⟩ := hm fuel hfu (fun k => (cls k).st) (fun k uo => Ext.refl _) (fun k => (igood_history (hobj k).ok (hobj k).refs (hc k)).st)
    (fun k => ranges_history (hobj k).ok (hobj k).fit (hobj k).refs (hc k))
  refine ⟨S, ?_⟩
  unfold stackText
  rw [k, Res.bind_ok]
  simp only
  rw [headText_eq]

end Pstack.Props
