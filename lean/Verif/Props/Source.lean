import Verif.Proof.Source
/-
Property theorems C91: the line of an address, and stacks whose functions and lines are looked up (Spec/Source.lean), after any history.
-/
namespace Pstack.Props
open Pstack.Reader Pstack.Spec Pstack.Dwarf Pstack.Die Pstack.Args Pstack.Lines Pstack.StackText

/-- A function that is not used does not matter. -/
theorem frame_unused {k : Knows} {op : LineParams → LineOp → Prop} {d : Sections} {xs : List DieUnit} {line : Option (List Byte)} {fs : FrameState} {w : ShowWhat} {no : Nat} {g : FrameFacts} {t : List Byte}
    (h : FrameText k op d xs line fs w no g t) (h1 : w.functions = false) (h2 : w.arguments = false) (h3 : g.sym = none) : FrameText k op d xs line fs w no { g with fn := none } t := by
  cases h with
  | outside h => exact .outside h
  | @inside object name args offset is _ g1 g2 g3 g4 g5 g6 =>
    have hl : g.looked w = none := by unfold FrameFacts.looked; rw [h1]; rfl
    have hl' : FrameFacts.looked { g with fn := none } w = none := by unfold FrameFacts.looked; rw [h1]; rfl
    have ha : args = [] := by
      generalize g.fn = r at g5
      cases g5 with
      | none => rfl
      | hidden => rfl
      | arguments h => rw [h2] at h; cases h
    subst ha
    have hn : FrameFacts.shownName { g with fn := none } name = g.shownName name := by unfold FrameFacts.shownName FrameFacts.mark; simp only; rw [h3]
    refine .inside (name := name) (args := []) (offset := offset) (is := is) g1 (by rw [hl']; rw [hl] at g2; exact g2) ?_ (by rw [hl']; rw [hl] at g4; exact g4) .none ?_
    · rw [hl']
      rw [hl] at g3
      cases g3 with
      | symbol _ h => rw [h3] at h; cases h
      | unknown h h' => exact .unknown h h'
    · rw [hn]
      cases g6 with
      | known a1 a2 a3 => exact .known a1 a2 a3
      | unknown a1 => exact .unknown a1

/-- Sources that are not shown do not matter. -/
theorem frame_nosrc {k : Knows} {op : LineParams → LineOp → Prop} {d : Sections} {xs : List DieUnit} {line : Option (List Byte)} {fs : FrameState} {w : ShowWhat} {no : Nat} {g : FrameFacts} {t : List Byte}
    (h : FrameText k op d xs line fs w no g t) (h1 : w.sources = false) : FrameText k op d xs line fs w no { g with source := none } t := by
  cases h with
  | outside h => exact .outside h
  | @inside object name args offset is _ g1 g2 g3 g4 g5 g6 =>
    refine .inside (name := name) (args := args) (offset := offset) (is := is) g1 g2 ?_ g4 g5 ?_
    · show FnOffset d xs { g with source := none } (g.looked w) offset
      generalize g.looked w = L at g3 ⊢
      cases g3 with
      | start a1 a2 a3 => exact .start a1 a2 a3
      | symbol a1 a2 a3 a4 => exact .symbol a1 a2 a3 a4
      | unknown a1 a2 => exact .unknown a1 a2
    · have hh : g.here w = none := by unfold FrameFacts.here; rw [h1]; rfl
      cases g6 with
      | known a1 a2 a3 => rw [hh] at a1; cases a1
      | unknown a1 => exact .unknown (by unfold FrameFacts.here; rw [h1]; rfl)

/-- An object, and what units have what addresses. -/
structure ObjAddrs (q : ObjDwarf) (xs : List DieUnit) (sec : Option (List Byte)) (sets : List ArangeSet) : Prop where
  obj : ObjOk q xs
  aranges : ArangesOk sec sets
  roots : RootsOk q.d xs
  agree : RangesAgree q.d xs sets
  units : xs ≠ []

/-- What is in a frame, apart from its function and line. -/
structure FrameBase (f : FrameIn) (g : FrameFacts) : Prop where
  pc : f.rawIP = g.pc
  trampoline : f.trampoline = g.trampoline
  mechanism : f.mechanism = g.mechanism
  object : f.object = g.object
  addr : f.addr = g.addr
  reloc : f.reloc = g.reloc
  sym : f.sym = g.sym

section
variable {q : ObjDwarf} {xs : List DieUnit} {sec : Option (List Byte)} {sets : List ArangeSet} (hob : ObjAddrs q xs sec sets)
include hob

theorem frame_located {o : TextOpts} {f : FrameIn} {g : FrameFacts} {fs : FrameState} (hfg : FrameBase f g) (hcx : FrameIs f.ctx fs) {no : Nat} {x : List Byte}
    (hl : g.Located Supported q.d xs sets q.line (shows o)) (h : FrameText knowsSome Supported q.d xs q.line fs (shows o) no g x) :
    ∃ m, ∀ fuel, m ≤ fuel → ∀ a, LGood q.d xs sets a → ∃ t s, locatedFrame q sec fuel o no f a.t a.c.st = .ok (x, t, s) ∧ LGood q.d xs sets ⟨⟨s, a.c.dies, a.c.iters⟩, t⟩ := by
  obtain ⟨hob, hsec, hroots, hag, hne⟩ := hob
  cases ho : f.object with
  | none =>
    have hg : g.object = none := by rw [← hfg.object, ho]
    have h' : FrameText knowsSome Supported q.d xs q.line fs (shows o) no { g with fn := none, source := none } x := by
      cases h with
      | outside h => exact .outside (f := { g with fn := none, source := none }) h
      | inside h => rw [hg] at h; cases h
    obtain ⟨m, hm⟩ := frame_shown hob.ok hob.fit hob.refs hob.bases rfl hob.line (g := { g with fn := none, source := none }) hcx h'
    refine ⟨m, fun fuel hf a hg => ?_⟩
    obtain ⟨s', k1, k2, k3⟩ := hm fuel hf { f with die := none, source := [] }
      ⟨hfg.pc, hfg.trampoline, hfg.mechanism, hfg.object, hfg.addr, hfg.reloc, hfg.sym, trivial⟩ rfl a.c.st hg.good.st hg.ranges trivial
    refine ⟨a.t, s', ?_, LGood.keep hob.ok hob.fit hob.refs hg k2 k3⟩
    unfold locatedFrame
    simp only [ho] at k1 ⊢
    rw [k1, Res.bind_ok]
  | some ob =>
    obtain ⟨l1, l2⟩ := hl (by rw [← hfg.object, ho]; exact fun h => nomatch h)
    rw [← hfg.addr] at l1 l2
    -- the function
    have hdie : ∃ fn m, (FrameText knowsSome Supported q.d xs q.line fs (shows o) no { g with fn := fn } x) ∧ ∀ fuel, m ≤ fuel → ∀ a, LGood q.d xs sets a →
        ∃ y t s, locateDie q sec fuel o f a.t a.c.st = .ok (y, t, s) ∧ KeptR q.d xs a.c.st s ∧ LGood q.d xs sets ⟨⟨s, a.c.dies, a.c.iters⟩, t⟩ ∧ DieIs q.d xs s y fn := by
      unfold locateDie
      cases hu : dieUsed o f with
      | true =>
        obtain ⟨m, hm⟩ := function_located hob hsec hroots hag hne l1
        exact ⟨g.fn, m, h, by simpa using hm⟩
      | false =>
        unfold dieUsed at hu
        simp only [Bool.or_eq_false_iff, Bool.not_eq_false', Option.isSome_eq_false_iff, Option.isNone_iff_eq_none] at hu
        refine ⟨none, 0, frame_unused h (by simp [shows, hu.1.1]) (by simp [shows, hu.1.2]) (by rw [← hfg.sym]; exact hu.2), fun fuel _ a hg => ⟨none, a.t, a.c.st, by simp, ⟨hg.good.st, fun _ => Ext.refl _⟩, hg, trivial⟩⟩
    obtain ⟨fn, m1, h1, h2⟩ := hdie
    have hsrc : ∃ src m, (FrameText knowsSome Supported q.d xs q.line fs (shows o) no { g with fn := fn, source := src } x) ∧ ∀ fuel, m ≤ fuel → ∀ a, LGood q.d xs sets a →
        ∃ y t s, locateSource q sec fuel o f a.t a.c.st = .ok (y, t, s) ∧ KeptR q.d xs a.c.st s ∧ LGood q.d xs sets ⟨⟨s, a.c.dies, a.c.iters⟩, t⟩ ∧ SourceIs y src := by
      unfold locateSource
      cases hn : o.nosrc with
      | true => exact ⟨none, 0, frame_nosrc h1 (by simp [shows, hn]), fun fuel _ a hg => ⟨[], a.t, a.c.st, by simp, ⟨hg.good.st, fun _ => Ext.refl _⟩, hg, trivial⟩⟩
      | false =>
        obtain ⟨m, hm⟩ := source_located hob hsec hroots hag hne (l2 (by simp [shows, hn]))
        refine ⟨g.source, m, h1, fun fuel hf a hg => ?_⟩
        obtain ⟨l, t, s, k1, _, k2, k3, k4⟩ := hm fuel hf a hg
        refine ⟨l, t, s, ?_, k2, k3, k4⟩
        simp only [Bool.false_eq_true, if_false]
        exact k1
    obtain ⟨src, m2, h3, h4⟩ := hsrc
    -- the text
    obtain ⟨m3, h5⟩ := frame_shown hob.ok hob.fit hob.refs hob.bases rfl hob.line (g := { g with fn := fn, source := src }) hcx h3
    refine ⟨m1 + m2 + m3, fun fuel hf a hg => ?_⟩
    obtain ⟨y, t1, s1, a1, a2, a3, a4⟩ := h2 fuel (by omega) a hg
    obtain ⟨l, t2, s2, b1, b2, b3, b4⟩ := h4 fuel (by omega) _ a3
    obtain ⟨s3, c1, c2, c3⟩ := h5 fuel (by omega) { f with die := y, source := l }
      ⟨hfg.pc, hfg.trampoline, hfg.mechanism, hfg.object, hfg.addr, hfg.reloc, hfg.sym, b4⟩ rfl s2 b3.good.st b3.ranges (a4.extR b2.2)
    refine ⟨t2, s3, ?_, LGood.keep hob.ok hob.fit hob.refs b3 c2 c3⟩
    unfold locatedFrame
    simp only [ho] at b1 c1 ⊢
    rw [a1, Res.bind_ok]
    simp only
    rw [b1, Res.bind_ok]
    simp only
    rw [c1, Res.bind_ok]

/-- C91. The line that is found for an address, whatever was looked up before, is that of the first row that covers it in the line table of the unit that has it; none is found if no unit has it,
if the unit says that it does not, if it has no line table, or if no row covers it. There is never more than one.
Missing: what C57, C58 and C28 miss. -/
theorem C91_source_partial {a : LClient} (h : LHistory q.d xs sec a) {detail : Bool} {addr : BitVec 64} {r : Option SourceLine} (hr : SourceOf Supported q.d xs sets q.line detail addr.toNat r) :
    ∃ m, ∀ fuel, m ≤ fuel → ∃ l t s, sourceFromAddr q sec fuel detail addr a.t a.c.st = .ok (l, t, s) ∧ l.length ≤ 1 ∧ SourceIs l r := by
  obtain ⟨m, hm⟩ := source_located hob.obj hob.aranges hob.roots hob.agree hob.units hr
  refine ⟨m, fun fuel hf => ?_⟩
  obtain ⟨l, t, s, k1, k2, _, _, k3⟩ := hm fuel hf a (lookup_history hob.obj.ok hob.obj.fit hob.obj.refs hob.aranges hob.roots hob.agree hob.units h)
  exact ⟨l, t, s, k1, k2, k3⟩

/-- C91. A frame is shown as C80 says, with the function and the line of its address, whatever was looked up before.
Missing: what C80, C57, C58 and C28 miss. -/
theorem C91_frame_partial {a : LClient} (h : LHistory q.d xs sec a) {o : TextOpts} {f : FrameIn} {g : FrameFacts} {fs : FrameState} (hfg : FrameBase f g) (hcx : FrameIs f.ctx fs) {no : Nat} {x : List Byte}
    (hl : g.Located Supported q.d xs sets q.line (shows o)) (hx : FrameText knowsSome Supported q.d xs q.line fs (shows o) no g x) :
    ∃ m, ∀ fuel, m ≤ fuel → ∃ t s, locatedFrame q sec fuel o no f a.t a.c.st = .ok (x, t, s) := by
  obtain ⟨m, hm⟩ := frame_located hob hfg hcx hl hx
  refine ⟨m, fun fuel hf => ?_⟩
  obtain ⟨t, s, k1, _⟩ := hm fuel hf a (lookup_history hob.obj.ok hob.obj.fit hob.obj.refs hob.aranges hob.roots hob.agree hob.units h)
  exact ⟨t, s, k1⟩

end

/-! ### Stacks -/

/-- The frames are these, each of them in an object of some number, and their functions and lines are those of their addresses. -/
inductive LocatedStack (objs : Nat → ObjDwarf) (us : Nat → List DieUnit) (sets : Nat → List ArangeSet) (o : TextOpts) : List (Nat × FrameIn) → List (Nat × FrameFacts × FrameState) → Prop
  | nil : LocatedStack objs us sets o [] []
  | cons {k f fs g c gs} : FrameBase f g → FrameIs f.ctx c → g.Located Supported (objs k).d (us k) (sets k) (objs k).line (shows o) → LocatedStack objs us sets o fs gs →
      LocatedStack objs us sets o ((k, f) :: fs) ((k, g, c) :: gs)

theorem frames_located {objs : Nat → ObjDwarf} {us : Nat → List DieUnit} {secs : Nat → Option (List Byte)} {sets : Nat → List ArangeSet} (hobj : ∀ k, ObjAddrs (objs k) (us k) (secs k) (sets k)) {o : TextOpts}
    {no : Nat} {gs : List (Nat × FrameFacts × FrameState)} {x : List Byte} (hx : FramesText knowsSome Supported (fun k => (objs k).d) us (fun k => (objs k).line) (shows o) no gs x) :
    ∀ {fs : List (Nat × FrameIn)}, LocatedStack objs us sets o fs gs → ∃ m, ∀ fuel, m ≤ fuel → ∀ A : Nat → LClient, (∀ k, LGood (objs k).d (us k) (sets k) (A k)) →
      ∃ S, locatedFrames objs secs fuel o no fs (fun k => ((A k).t, (A k).c.st)) = .ok (x, S) := by
  induction hx with
  | nil =>
    intro fs h
    cases h
    exact ⟨0, fun fuel _ A _ => ⟨_, rfl⟩⟩
  | @cons no k g c x gs xs h1 _ ih =>
    intro fs h
    cases h with
    | @cons _ f fs _ _ _ hf hcx hl hrest =>
    obtain ⟨m1, k1⟩ := frame_located (hobj k) hf hcx hl h1
    obtain ⟨m2, k2⟩ := ih hrest
    refine ⟨m1 + m2, fun fuel hfu A hA => ?_⟩
    obtain ⟨t, s, a1, a2⟩ := k1 fuel (by omega) (A k) (hA k)
    obtain ⟨S, b1⟩ := k2 fuel (by omega) (fun j => if j = k then ⟨⟨s, (A k).c.dies, (A k).c.iters⟩, t⟩ else A j) (by
      intro j
      by_cases hj : j = k
      · subst hj; simp only [if_true]; exact a2
      · simp only [if_neg hj]; exact hA j)
    refine ⟨S, ?_⟩
    rw [locatedFrames, a1, Res.bind_ok]
    simp only
    have e : (fun j => if j = k then (t, s) else ((A j).t, (A j).c.st)) =
        (fun j => ((if j = k then (⟨⟨s, (A k).c.dies, (A k).c.iters⟩, t⟩ : LClient) else A j).t, (if j = k then (⟨⟨s, (A k).c.dies, (A k).c.iters⟩, t⟩ : LClient) else A j).c.st)) := by
      funext j
      by_cases hj : j = k
      · simp only [if_pos hj]
      · simp only [if_neg hj]
    rw [e, b1, Res.bind_ok]

/-- C91. A stack is shown as C81 says, with the functions and the lines of the addresses of its frames, whatever was looked up before.
Missing: what C80, C57, C58 and C28 miss. -/
theorem C91_stack_partial {objs : Nat → ObjDwarf} {us : Nat → List DieUnit} {secs : Nat → Option (List Byte)} {sets : Nat → List ArangeSet} (hobj : ∀ k, ObjAddrs (objs k) (us k) (secs k) (sets k))
    {A : Nat → LClient} (hA : ∀ k, LHistory (objs k).d (us k) (secs k) (A k)) {o : TextOpts} {fs : List (Nat × FrameIn)} {gs : List (Nat × FrameFacts × FrameState)}
    (hfs : LocatedStack objs us sets o fs gs) {x : List Byte} (hx : FramesText knowsSome Supported (fun k => (objs k).d) us (fun k => (objs k).line) (shows o) 0 gs x) (l : LwpIn) :
    ∃ m, ∀ fuel, m ≤ fuel → ∃ S, locatedStack objs secs fuel o l fs (fun k => ((A k).t, (A k).c.st)) = .ok (stackHeading l.thread l.id l.name ++ x, S) := by
  obtain ⟨m, hm⟩ := frames_located hobj hx hfs
  refine ⟨m, fun fuel hf => ?_⟩
  obtain ⟨S, k⟩ := hm fuel hf A (fun k => lookup_history (hobj k).obj.ok (hobj k).obj.fit (hobj k).obj.refs (hobj k).aranges (hobj k).roots (hobj k).agree (hobj k).units (hA k))
  refine ⟨S, ?_⟩
  unfold locatedStack
  rw [k, Res.bind_ok]
  simp only
  rw [headText_eq]

end Pstack.Props
