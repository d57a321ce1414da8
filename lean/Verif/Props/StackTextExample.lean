import Verif.Props.StackText
import Verif.Props.ArgsExample
/-
A unit with an inlined function, and a stack: `C80` and `C81` apply to it.
-/
namespace Pstack.Props
open Pstack.Reader Pstack.Spec Pstack.Dwarf Pstack.Die Pstack.Args Pstack.Lines Pstack.StackText Pstack.Arch

/-! ### A unit with an inlined function -/

def traceRoot : DieEntry := ⟨⟨1, 0x11, true, [⟨0x11, 0x01, 0⟩, ⟨0x10, 0x17, 0⟩]⟩, [.num 0x1000, .num 0]⟩
def traceInt : DieEntry := callBase [0x69, 0x6e, 0x74] 5 4
def traceAbstract : DieEntry := ⟨⟨3, 0x2e, false, [⟨3, 0x08, 0⟩]⟩, [.str [0x67]]⟩
def traceFun (c : Byte) (lo : Nat) : DieEntry := ⟨⟨4, 0x2e, true, [⟨3, 0x08, 0⟩, ⟨0x11, 0x01, 0⟩, ⟨0x12, 0x0b, 0⟩]⟩, [.str [c], .num lo, .num 0x40]⟩
def traceParam : DieEntry := ⟨⟨5, 0x05, false, [⟨3, 0x08, 0⟩, ⟨0x49, 0x11, 0⟩, ⟨0x1c, 0x0d, 0⟩]⟩, [.str [0x61], .num 24, .int (-3)]⟩
def traceInlined (lo file line : Nat) : DieEntry :=
  ⟨⟨6, 0x1d, false, [⟨0x31, 0x11, 0⟩, ⟨0x11, 0x01, 0⟩, ⟨0x12, 0x0b, 0⟩, ⟨0x58, 0x0b, 0⟩, ⟨0x59, 0x0b, 0⟩]⟩, [.num 31, .num lo, .num 0x10, .num file, .num line]⟩

def traceDecls : List DieDecl := [traceRoot.decl, traceInt.decl, traceAbstract.decl, (traceFun 0 0).decl, traceParam.decl, (traceInlined 0 0 0).decl]

/-- `void f(int a)`, which has `g` inlined at 0x1010, called in line 12 of file 1; and `h`, which has it at 0x1110, called in a file 9 that is not there. -/
def traceUnit : DieUnit := ⟨false, 4, 0, 8, [], 0, traceDecls,
  ⟨traceRoot, some (.leaf traceInt (.leaf traceAbstract (.node (traceFun 0x66 0x1000) (.leaf traceParam (.leaf (traceInlined 0x1010 1 12) .done))
    (.node (traceFun 0x68 0x1100) (.leaf (traceInlined 0x1110 9 13) .done) .done))))⟩, []⟩

def traceSections : Sections := ⟨encodeUnits [traceUnit], encodeDecls traceDecls, [], sampleLineStr, [], [], none, none⟩

def traceKids : Forest (Nat × DieEntry) := .leaf (46, traceParam) (.leaf (51, traceInlined 0x1010 1 12) .done)
def traceKids2 : Forest (Nat × DieEntry) := .leaf (77, traceInlined 0x1110 9 13) .done
def traceTop : Forest (Nat × DieEntry) :=
  .leaf (24, traceInt) (.leaf (31, traceAbstract) (.node (34, traceFun 0x66 0x1000) traceKids (.node (65, traceFun 0x68 0x1100) traceKids2 .done)))

theorem trace_placed : traceUnit.placed 0 = ⟨(11, traceRoot), some traceTop⟩ := by
  simp [traceUnit, traceTop, traceKids, traceKids2, traceRoot, traceInt, traceAbstract, traceFun, traceParam, traceInlined, callBase, DieUnit.sizes, DieUnit.rootPos, DieUnit.lengthField, DieUnit.header, DieUnit.offSize,
    DieUnit.placed, DieTree.place, Forest.place, Forest.encode, DieEntry.encode, encodeVals, formKind, FormKind.encode, encodeU_small, encodeS_small, leBytes_length]

def traceAll : List (Nat × DieEntry) := [(11, traceRoot), (24, traceInt), (31, traceAbstract), (34, traceFun 0x66 0x1000), (46, traceParam), (51, traceInlined 0x1010 1 12), (65, traceFun 0x68 0x1100),
  (77, traceInlined 0x1110 9 13)]

theorem trace_entries {uo : Nat} {x : DieUnit} {o : Nat} {e : DieEntry} : EntryIn [traceUnit] uo x o e ↔ uo = 0 ∧ x = traceUnit ∧ (o, e) ∈ traceAll := by
  have hp : (traceUnit.placed 0).all = traceAll := by rw [trace_placed]; rfl
  unfold EntryIn
  rw [placeUnits, placeUnits]
  constructor
  · rintro ⟨h1, h2⟩
    simp only [List.mem_cons, List.not_mem_nil, or_false, Prod.mk.injEq] at h1
    obtain ⟨rfl, rfl⟩ := h1
    rw [hp] at h2
    exact ⟨rfl, rfl, h2⟩
  · rintro ⟨rfl, rfl, h⟩
    exact ⟨by simp, by rw [hp]; exact h⟩

/-- What the attributes refer to are entries. -/
def traceRef (a : AttrDecl) : AttrVal → Bool
  | .num n => !(0x11 ≤ a.form && a.form ≤ 0x15 || a.form == 0x10) || (traceAll.any fun p => p.1 == n)
  | _ => true

theorem trace_ok : InfoOk traceSections [traceUnit] ∧ RefsOk [traceUnit] ∧ SectionsFit traceSections := by
  refine ⟨⟨rfl, ?_, ?_, ?_, ?_⟩, ?_, ⟨by decide, by decide, by decide, by decide, (fun _ h => nomatch h), fun _ h => nomatch h⟩⟩
  · intro x hx
    simp only [List.mem_cons, List.not_mem_nil, or_false] at hx
    subst hx
    refine ⟨⟨by decide, (fun h => by revert h; decide), by decide, (fun h => by cases h), by decide, ?_, by decide, ?_⟩, ?_, by decide, (fun h => by cases h)⟩
    · intro a ha
      simp only [traceUnit, traceDecls, List.mem_cons, List.not_mem_nil, or_false] at ha
      rcases ha with rfl | rfl | rfl | rfl | rfl | rfl <;> refine ⟨by decide, by decide, ?_⟩ <;> intro b hb <;>
        simp only [traceRoot, traceInt, traceAbstract, traceFun, traceParam, traceInlined, callBase, List.mem_cons, List.not_mem_nil, or_false] at hb
      all_goals first
        | (subst hb; exact ⟨by decide, by decide, by decide⟩)
        | (rcases hb with rfl | rfl <;> exact ⟨by decide, by decide, by decide⟩)
        | (rcases hb with rfl | rfl | rfl <;> exact ⟨by decide, by decide, by decide⟩)
        | (rcases hb with rfl | rfl | rfl | rfl | rfl <;> exact ⟨by decide, by decide, by decide⟩)
    · simp [traceUnit, traceDecls, traceRoot, traceInt, traceAbstract, traceFun, traceParam, traceInlined, callBase, DieUnit.sizes, DieUnit.rootPos, DieUnit.lengthField, DieUnit.header, DieUnit.offSize, DieTree.WF,
        Forest.WF, ValsFit, AttrFits, DieTree.encode, Forest.encode, DieEntry.encode, encodeVals, formKind, FormKind.encode, FormKind.Fits, IsLocalRef, encodeU_small, encodeS_small, leBytes_length, GoodName]
    · simp [traceUnit, traceRoot, traceInt, traceAbstract, traceFun, traceParam, traceInlined, callBase, DieUnit.body, DieUnit.sizes, DieTree.encode, Forest.encode, DieUnit.header, DieUnit.offSize,
        DieEntry.encode, encodeVals, formKind, FormKind.encode, encodeU_small, encodeS_small, leBytes_length]
  · intro x hx
    simp only [List.mem_cons, List.not_mem_nil, or_false] at hx
    subst hx; exact ⟨[], by simp [traceUnit, traceSections]⟩
  · simp [traceSections, encodeUnits, traceUnit, traceRoot, traceInt, traceAbstract, traceFun, traceParam, traceInlined, callBase, DieUnit.encode, DieUnit.body, DieUnit.sizes, DieUnit.lengthField, DieTree.encode,
      Forest.encode, DieUnit.header, DieUnit.offSize, DieEntry.encode, encodeVals, formKind, FormKind.encode, encodeU_small, encodeS_small, leBytes_length]
  · simp [traceSections, encodeDecls, traceDecls, traceRoot, traceInt, traceAbstract, traceFun, traceParam, traceInlined, callBase, DieDecl.encode, AttrDecl.encode, encodeU_small]
  · intro uo x o e he i a v o' ha hv hn hr
    obtain ⟨rfl, rfl, h⟩ := trace_entries.1 he
    have hall : traceAll.all (fun p => (p.2.decl.attrs.zip p.2.vals).all fun q => traceRef q.1 q.2) = true := by decide +kernel
    rw [List.all_eq_true] at hall
    have h1 := hall _ h
    rw [List.all_eq_true] at h1
    have hz : (e.decl.attrs.zip e.vals)[i]? = some (a, v) := by rw [List.getElem?_zip_eq_some]; exact ⟨ha, hv⟩
    have h2 := h1 _ (List.mem_of_getElem? hz)
    obtain ⟨n, rfl, hr⟩ := hr
    have hn : o' = n := by rcases hr with ⟨_, h⟩ | ⟨_, h⟩ <;> omega
    have hf : ((decide (0x11 ≤ a.form) && decide (a.form ≤ 0x15)) || a.form == 0x10) = true := by
      rcases hr with ⟨⟨h1, h2⟩, _⟩ | ⟨h, _⟩
      · simp [h1, h2]
      · simp [h]
    simp only [traceRef] at h2
    rw [hf] at h2
    simp only [Bool.not_true, Bool.false_or, List.any_eq_true, beq_iff_eq] at h2
    obtain ⟨p, hp, hpn⟩ := h2
    exact ⟨0, traceUnit, p.2, trace_entries.2 ⟨rfl, rfl, by rw [hn, ← hpn]; exact hp⟩⟩

theorem trace_base : BaseAddress traceSections traceUnit 0x1000 := .inl ⟨0, rfl, ⟨_, _, rfl, rfl, .const (by decide)⟩, by decide⟩

theorem trace_bases : BasesKnown traceSections [traceUnit] := by
  intro uo x h
  simp only [placeUnits, List.mem_cons, List.not_mem_nil, or_false, Prod.mk.injEq] at h
  obtain ⟨_, rfl⟩ := h
  exact ⟨_, trace_base⟩

def traceObj : ObjDwarf := ⟨traceSections, some sampleLineTable.encode, fun _ => .exc⟩

theorem trace_obj : ObjOk traceObj [traceUnit] := ⟨trace_ok.1, trace_ok.2.2, trace_ok.2.1, trace_bases, by
  intro sec h
  injection h with h
  subst h
  decide +kernel⟩

/-! ### What is said -/

theorem trace_at {p : Nat × DieEntry} (i : Nat) (h : traceAll[i]? = some p) : EntryIn [traceUnit] 0 traceUnit p.1 p.2 := trace_entries.2 ⟨rfl, rfl, List.mem_of_getElem? h⟩
theorem trace_mem : (0, traceUnit) ∈ placeUnits 0 [traceUnit] := by simp [placeUnits]

def traceEntry (o : Nat) (e : DieEntry) : EntryRef := ⟨0, traceUnit, o, e⟩

theorem trace_parent {o : Nat} {e : DieEntry} (h : ((11, traceRoot), (o, e)) ∈ traceTop.withParent (11, traceRoot)) : ParentOf traceUnit 0 11 traceRoot o e := by
  unfold ParentOf; rw [trace_placed]; exact h

theorem trace_top : Scopes traceSections [traceUnit] 0 traceUnit 11 traceRoot [] := .unit (trace_at 0 rfl) ⟨rfl, rfl⟩ rfl

theorem trace_abstract : DeclaredAs traceSections [traceUnit] 0 traceUnit 31 traceAbstract [] [0x67] :=
  .here trace_mem (trace_parent (by simp [traceTop, Forest.withParent])) ⟨rfl, rfl⟩ rfl (.named (i := 0) rfl rfl rfl (.direct rfl (by unfold GoodName; decide))) trace_top

theorem trace_f : DeclaredAs traceSections [traceUnit] 0 traceUnit 34 (traceFun 0x66 0x1000) [] [0x66] :=
  .here trace_mem (trace_parent (by simp [traceTop, Forest.withParent])) ⟨rfl, rfl⟩ rfl (.named (i := 0) rfl rfl rfl (.direct rfl (by unfold GoodName; decide))) trace_top

theorem trace_h : DeclaredAs traceSections [traceUnit] 0 traceUnit 65 (traceFun 0x68 0x1100) [] [0x68] :=
  .here trace_mem (trace_parent (by simp [traceTop, Forest.withParent])) ⟨rfl, rfl⟩ rfl (.named (i := 0) rfl rfl rfl (.direct rfl (by unfold GoodName; decide))) trace_top

theorem trace_inlined {o lo file line : Nat} (h : EntryIn [traceUnit] 0 traceUnit o (traceInlined lo file line)) :
    DeclaredAs traceSections [traceUnit] 0 traceUnit o (traceInlined lo file line) [] [0x67] :=
  .link h (.origin (o' := 31) (e' := traceAbstract) rfl ⟨0, _, _, rfl, rfl, rfl, 31, rfl, .inl ⟨by unfold IsLocalRef; decide, rfl⟩⟩ (trace_at 2 rfl)) trace_abstract

/-- Low address and size. -/
theorem trace_fun_bounds (c : Byte) {lo : Nat} (h : lo < 2 ^ 32) : EntryBounds traceSections traceUnit (traceFun c lo) lo (lo + 0x40) :=
  ⟨1, 2, _, _, 0x40, rfl, rfl, .inl rfl, ⟨_, _, rfl, rfl, .const (by decide)⟩, rfl, rfl, ⟨_, _, rfl, rfl, .const (by decide)⟩, by omega, by omega, .inr ⟨⟨by decide, by decide⟩, rfl⟩⟩
theorem trace_inl_bounds (file line : Nat) {lo : Nat} (h : lo < 2 ^ 32) : EntryBounds traceSections traceUnit (traceInlined lo file line) lo (lo + 0x10) :=
  ⟨1, 2, _, _, 0x10, rfl, rfl, .inl rfl, ⟨_, _, rfl, rfl, .const (by decide)⟩, rfl, rfl, ⟨_, _, rfl, rfl, .const (by decide)⟩, by omega, by omega, .inr ⟨⟨by decide, by decide⟩, rfl⟩⟩

theorem trace_told_in {addr o : Nat} {e : DieEntry} {lo hi : Nat} (h : EntryBounds traceSections traceUnit e lo hi) (hn : e.find 0x55 = none) (h1 : lo ≤ addr ∧ addr < hi) :
    Told traceSections [traceUnit] 0 traceUnit addr (o, e) := by
  refine ⟨.inl (.inl ⟨lo, hi, h, h1⟩), ?_⟩
  rintro l ⟨i, _, _, h, _⟩
  have h : e.find 0x55 = some i := h
  rw [hn] at h; cases h

theorem trace_told_param {addr : Nat} : Told traceSections [traceUnit] 0 traceUnit addr (46, traceParam) := by
  refine ⟨.inr (.inr ⟨.inl rfl, .nowhere rfl rfl rfl⟩), ?_⟩
  rintro l ⟨i, _, _, h, _⟩
  cases h

theorem trace_not_out {a : Nat × DieEntry} {addr : BitVec 64} (ha : EntryIn [traceUnit] 0 traceUnit a.1 a.2) (ht : Told traceSections [traceUnit] 0 traceUnit addr.toNat a)
    (h : SaysIn traceSections [traceUnit] 0 traceUnit addr.toNat a) : ¬SaysOut traceSections [traceUnit] 0 traceUnit addr.toNat a :=
  says_one trace_ok.1 trace_ok.2.2 trace_ok.2.1 (igood_history trace_ok.1 trace_ok.2.1 (.start (d := traceSections))).st
    (ranges_history trace_ok.1 trace_ok.2.2 trace_ok.2.1 (.start (d := traceSections))) ha ht h

/-- The chain of inlined functions: one, which has no children. -/
theorem trace_chain {addr : BitVec 64} {o : Nat} {e : DieEntry} {K : Forest (Nat × DieEntry)} {b : Nat × DieEntry} (h1 : ¬SaysOut traceSections [traceUnit] 0 traceUnit addr.toNat (o, e))
    (h2 : K.Reaches (fun b => ¬SaysOut traceSections [traceUnit] 0 traceUnit addr.toNat b) b) (h3 : b.2.decl.tag = 0x1d) (h4 : SaysIn traceSections [traceUnit] 0 traceUnit addr.toNat b)
    (h5 : ∀ c ∈ K.all, c.2.decl.tag = 0x1d → c = b) (h6 : K.KidsOf b .done) : InlineChain traceSections [traceUnit] 0 traceUnit addr.toNat (o, e) K [b] := by
  refine .more (.inr ⟨h1, h2, h3, h4⟩) ?_ h6 (.stop ?_)
  · rintro c (⟨h, _⟩ | ⟨_, h, h', _⟩)
    · cases h
    · rw [h5 c (reaches_mem h) h']; exact Nat.le_refl _
  · rintro c (⟨h, _⟩ | ⟨_, h, _⟩)
    · cases h
    · cases h

theorem trace_kids : (traceUnit.placed 0).KidsOf (34, traceFun 0x66 0x1000) traceKids := by rw [trace_placed]; exact .under (.afterLeaf (.afterLeaf .node))
theorem trace_kids2 : (traceUnit.placed 0).KidsOf (65, traceFun 0x68 0x1100) traceKids2 := by rw [trace_placed]; exact .under (.afterLeaf (.afterLeaf (.afterNode .node)))

theorem trace_told : ∀ b ∈ (34, traceFun 0x66 0x1000) :: traceKids.all, Told traceSections [traceUnit] 0 traceUnit (0x1015#64).toNat b := by
  intro b hb
  simp only [traceKids, Forest.all, Forest.firsts, List.map_cons, List.map_nil, List.mem_cons, List.not_mem_nil, or_false] at hb
  rcases hb with rfl | rfl | rfl
  · exact trace_told_in (trace_fun_bounds _ (by decide)) rfl (by decide)
  · exact trace_told_param
  · exact trace_told_in (trace_inl_bounds _ _ (by decide)) rfl (by decide)

theorem trace_told2 : ∀ b ∈ (65, traceFun 0x68 0x1100) :: traceKids2.all, Told traceSections [traceUnit] 0 traceUnit (0x1115#64).toNat b := by
  intro b hb
  simp only [traceKids2, Forest.all, Forest.firsts, List.map_cons, List.map_nil, List.mem_cons, List.not_mem_nil, or_false] at hb
  rcases hb with rfl | rfl
  · exact trace_told_in (trace_fun_bounds _ (by decide)) rfl (by decide)
  · exact trace_told_in (trace_inl_bounds _ _ (by decide)) rfl (by decide)

theorem trace_f_chain : InlineChain traceSections [traceUnit] 0 traceUnit (0x1015#64).toNat (34, traceFun 0x66 0x1000) traceKids [(51, traceInlined 0x1010 1 12)] :=
  trace_chain (trace_not_out (trace_at 3 rfl) (trace_told _ List.mem_cons_self) (.inl ⟨_, _, trace_fun_bounds _ (by decide), by decide, by decide⟩)) (.afterLeaf .leaf) rfl
    (.inl ⟨_, _, trace_inl_bounds _ _ (by decide), by decide, by decide⟩) (by
      intro c hc h
      simp only [traceKids, Forest.all, Forest.firsts, List.map_cons, List.map_nil, List.mem_cons, List.not_mem_nil, or_false] at hc
      rcases hc with rfl | rfl
      · cases h
      · rfl) (.afterLeaf .leaf)

theorem trace_h_chain : InlineChain traceSections [traceUnit] 0 traceUnit (0x1115#64).toNat (65, traceFun 0x68 0x1100) traceKids2 ([] ++ [(77, traceInlined 0x1110 9 13)]) :=
  trace_chain (trace_not_out (trace_at 6 rfl) (trace_told2 _ List.mem_cons_self) (.inl ⟨_, _, trace_fun_bounds _ (by decide), by decide, by decide⟩)) .leaf rfl
    (.inl ⟨_, _, trace_inl_bounds _ _ (by decide), by decide, by decide⟩) (by
      intro c hc h
      simp only [traceKids2, Forest.all, Forest.firsts, List.map_cons, List.map_nil, List.mem_cons, List.not_mem_nil, or_false] at hc
      exact hc) .leaf

theorem trace_lines : LinesOf traceSections sampleLineTable.encode traceUnit sampleLineTable :=
  ⟨rfl, sampleLineTable_wf.1, (fun h => absurd h (by decide)), 1, _, _, 0, [], rfl, rfl, rfl, .offset rfl (by decide), by simp⟩

theorem trace_plain : sampleLineTable.Plain Supported := ⟨rfl, sampleLineTable_wf.2.2, .inr (by decide), sampleLineTable_wf.2.1⟩

/-- `g` is called in line 12 of "a.c". -/
theorem trace_called : InlinedAs traceSections [traceUnit] sampleLineTable.tables false 0 traceUnit [(51, traceInlined 0x1010 1 12)] [⟨[0x67], ⟨asciiText "a.c", 12⟩⟩] :=
  .cons (trace_inlined (trace_at 5 rfl)) (fun p h => nomatch h) rfl
    ⟨1, _, _, ⟨_, _, _, _, _, _, _, .own (trace_at 5 rfl) rfl, rfl, rfl, .const (.inl rfl) (by decide)⟩, rfl, rfl, by decide +kernel,
      ⟨_, _, _, _, _, _, _, .own (trace_at 5 rfl) rfl, rfl, rfl, .const (.inl rfl) (by decide)⟩, by decide, by decide⟩ .nil

theorem trace_arg : ArgTexts knowsSome traceSections [traceUnit] (callState 0x1015) (parameters 0 traceUnit traceKids) [asciiText "a=-3"] := by
  have h : asciiText "a=-3" = [0x61] ++ (asciiText "=" ++ decimalText (-3)) := by decide +kernel
  rw [h]
  refine .cons (.constant (r := traceEntry 24 traceInt) (.named (.own (trace_at 4 rfl) rfl) rfl rfl (.direct rfl (by unfold GoodName; decide)))
    (.refers (.own (trace_at 4 rfl) rfl) rfl rfl ⟨24, rfl, .inl ⟨by unfold IsLocalRef; decide, rfl⟩⟩ (trace_at 1 rfl)) (.nowhere rfl rfl rfl) (.own (trace_at 4 rfl) rfl) rfl rfl
    (.signed (.inl rfl) (by decide) (by decide))) .nil

/-! ### Frames -/

/-- A frame in `f`, at 0x1015 in the object, which is at 0x400000. -/
def traceFacts : FrameFacts := ⟨0x401015, false, asciiText "dwarf", some (asciiText "/bin/x"), 0x1015, 0x400000, some (traceEntry 34 (traceFun 0x66 0x1000)), none, some ⟨asciiText "g.h", 7⟩⟩
def traceIn (y : DIE) : FrameIn := ⟨0x401015, false, asciiText "dwarf", 0x1015, some (asciiText "/bin/x"), 0x400000, some y, none, [(asciiText "g.h", 7)], callCtx 0x1015⟩

theorem trace_frame (y : DIE) : FrameFor (traceIn y) traceFacts := ⟨rfl, rfl, rfl, rfl, rfl, rfl, rfl, rfl, rfl⟩

/-- The program finds the entries. -/
theorem trace_found {o : Nat} {e : DieEntry} (h : EntryIn [traceUnit] 0 traceUnit o e) : ∃ y s cl, infoOffsetToDIE traceSections o IState.empty = .ok (y, s) ∧ IHistory traceSections [traceUnit] cl ∧
    FunctionIs traceSections [traceUnit] cl (some y) (some (traceEntry o e)) ∧ cl.st = s := by
  obtain ⟨y, s, h1, h2, h3, h4⟩ := C56_find trace_ok.1 trace_ok.2.1 .start h
  exact ⟨y, s, _, h1, h3, ⟨h4, h2⟩, rfl⟩

theorem trace_offset : FnOffset traceSections [traceUnit] traceFacts (some (traceEntry 34 (traceFun 0x66 0x1000))) (some 21) :=
  .start (n := 0x1000) (.low (.own (trace_at 3 rfl) rfl) ⟨_, _, rfl, rfl, .const (by decide)⟩) (by decide) (by decide)

def traceOpts : TextOpts := ⟨false, false, true, false⟩

def traceText (no : Nat) : List Byte := frameNumber no ++ (asciiText "inlined            in g at g.h:7\n" ++ (frameNumber no ++ asciiText "0x0000000000401015 in f(a=-3)+21 in /bin/x at a.c:12\n"))

theorem trace_text (no : Nat) : FrameText knowsSome Supported traceSections [traceUnit] traceObj.line (callState 0x1015) (shows traceOpts) no traceFacts (traceText no) := by
  have ht : traceText no = inlinedLines no ⟨asciiText "g.h", 7⟩ [⟨[0x67], ⟨asciiText "a.c", 12⟩⟩] ++
      functionLine (shows traceOpts) no traceFacts (asciiText "/bin/x") (traceFacts.shownName (qualified [] [0x66])) (argumentText [asciiText "a=-3"]) (some 21) (some ⟨asciiText "a.c", 12⟩) := by
    unfold traceText inlinedLines functionLine
    have e1 : asciiText "inlined            in g at g.h:7\n" = asciiText "inlined            in " ++ ([0x67] ++ (SourceLine.text ⟨asciiText "g.h", 7⟩ ++ asciiText "\n")) := by decide +kernel
    have e2 : asciiText "0x0000000000401015 in f(a=-3)+21 in /bin/x at a.c:12\n" = asciiText "0x" ++ (hex16 traceFacts.pc.toNat ++ (asciiText " in " ++ (traceFacts.shownName (qualified [] [0x66]) ++
      (asciiText "(" ++ (argumentText [asciiText "a=-3"] ++ (asciiText ")" ++ ((asciiText "+" ++ decimalText 21) ++ (asciiText " in " ++ (asciiText "/bin/x" ++ ([] ++
      (SourceLine.text ⟨asciiText "a.c", 12⟩ ++ ([] ++ asciiText "\n")))))))))))) := by decide +kernel
    rw [e1, e2]
    simp only [inlinedLines, List.append_assoc, List.nil_append]
    rfl
  rw [ht]
  refine .inside (is := [⟨[0x67], ⟨asciiText "a.c", 12⟩⟩]) rfl (.declared trace_f (fun p h => nomatch h)) trace_offset
    (.inlined rfl trace_kids trace_told trace_f_chain trace_lines trace_plain trace_called) (.arguments rfl trace_kids trace_arg) ?_
  exact .known rfl (by decide +kernel) (by intro i hi; simp only [List.mem_cons, List.not_mem_nil, or_false] at hi; subst hi; decide +kernel)

/-- C80 applies to it. -/
theorem C80_example : ∃ y s, infoOffsetToDIE traceSections 34 IState.empty = .ok (y, s) ∧ ∃ m, ∀ fuel, m ≤ fuel →
    ∃ s', frameText traceObj fuel traceOpts 0 (traceIn y) s = .ok (asciiText "#0  inlined            in g at g.h:7\n#0  0x0000000000401015 in f(a=-3)+21 in /bin/x at a.c:12\n", s') := by
  obtain ⟨y, s, cl, h1, h2, h3, rfl⟩ := trace_found (trace_at 3 rfl)
  refine ⟨y, _, h1, ?_⟩
  have := C80_frame_partial trace_obj h2 (o := traceOpts) (trace_frame y) (call_frame (by decide)) h3 (trace_text 0)
  have e : traceText 0 = asciiText "#0  inlined            in g at g.h:7\n#0  0x0000000000401015 in f(a=-3)+21 in /bin/x at a.c:12\n" := by decide +kernel
  rw [e] at this
  exact this

/-- `C80_not_newline` applies, -/
theorem C80_newline_example : ∃ y s, infoOffsetToDIE traceSections 34 IState.empty = .ok (y, s) ∧ ∃ m, ∀ fuel, m ≤ fuel →
    ∃ s', frameText traceObj fuel ⟨true, false, false, false⟩ 0 (traceIn y) s = .ok (asciiText "#0  inlined            in g#0  0x0000000000401015 in f()+21 in /bin/x\n", s') := by
  obtain ⟨y, s, cl, h1, h2, h3, rfl⟩ := trace_found (trace_at 3 rfl)
  refine ⟨y, _, h1, ?_⟩
  have := C80_not_newline trace_obj h2 (o := ⟨true, false, false, false⟩) (no := 0) (trace_frame y) (call_frame (by decide)) h3 rfl rfl rfl trace_f (fun p h => nomatch h) trace_offset trace_kids trace_told
    trace_f_chain (.hidden rfl) (.cons (trace_inlined (trace_at 5 rfl)) (fun p h => nomatch h) .nil)
  have e : asciiText "#0  inlined            in g#0  0x0000000000401015 in f()+21 in /bin/x\n" = (([qualified [] [0x67]].map (fun n => frameNumber 0 ++ (asciiText "inlined            in " ++ n))).flatten ++
    functionLine (shows ⟨true, false, false, false⟩) 0 traceFacts (asciiText "/bin/x") (traceFacts.shownName (qualified [] [0x66])) [] (some 21) none) := by decide +kernel
  rw [e]
  exact this

def traceInNowhere (y : DIE) : FrameIn := { traceIn y with source := [] }
def traceNowhere : FrameFacts := { traceFacts with source := none }

/-- and `C80_not_source`, -/
theorem C80_source_example : ∃ y s, infoOffsetToDIE traceSections 34 IState.empty = .ok (y, s) ∧ ∃ m, ∀ fuel, m ≤ fuel →
    ∃ s', frameText traceObj fuel traceOpts 0 (traceInNowhere y) s =
      .ok (asciiText "#0  inlined            in g at :-1\n#0  0x0000000000401015 in f(a=-3)+21 in /bin/x at a.c:12\n", s') := by
  obtain ⟨y, s, cl, h1, h2, h3, rfl⟩ := trace_found (trace_at 3 rfl)
  refine ⟨y, _, h1, ?_⟩
  have hf : FrameFor (traceInNowhere y) traceNowhere := ⟨rfl, rfl, rfl, rfl, rfl, rfl, rfl, trivial⟩
  have ho : FnOffset traceSections [traceUnit] traceNowhere (some (traceEntry 34 (traceFun 0x66 0x1000))) (some 21) :=
    .start (n := 0x1000) (.low (.own (trace_at 3 rfl) rfl) ⟨_, _, rfl, rfl, .const (by decide)⟩) (by decide) (by decide)
  have := C80_not_source trace_obj h2 (o := traceOpts) (no := 0) hf (call_frame (pc := 0x1015) (by decide)) h3 rfl rfl rfl rfl trace_f (fun p h => nomatch h) ho trace_kids trace_told
    trace_f_chain (.arguments rfl trace_kids trace_arg) rfl trace_lines trace_plain trace_called (by simp) (by
      intro i hi; simp only [List.mem_cons, List.not_mem_nil, or_false] at hi; subst hi; decide +kernel)
  have e : asciiText "#0  inlined            in g at :-1\n#0  0x0000000000401015 in f(a=-3)+21 in /bin/x at a.c:12\n" = inlinedLines 0 ⟨[], -1⟩ [⟨[0x67], ⟨asciiText "a.c", 12⟩⟩] ++
    functionLine (shows traceOpts) 0 traceNowhere (asciiText "/bin/x") (traceNowhere.shownName (qualified [] [0x66])) (argumentText [asciiText "a=-3"]) (some 21) (some ⟨asciiText "a.c", 12⟩) := by decide +kernel
  rw [e]
  exact this

def traceFacts2 : FrameFacts := ⟨0x401115, false, asciiText "dwarf", some (asciiText "/bin/x"), 0x1115, 0x400000, some (traceEntry 65 (traceFun 0x68 0x1100)), none, some ⟨asciiText "g.h", 7⟩⟩
def traceIn2 (y : DIE) : FrameIn := ⟨0x401115, false, asciiText "dwarf", 0x1115, some (asciiText "/bin/x"), 0x400000, some y, none, [(asciiText "g.h", 7)], callCtx 0x1015⟩

/-- and `C80_not_file` to a frame in `h`. -/
theorem C80_file_example : ∃ y s, infoOffsetToDIE traceSections 65 IState.empty = .ok (y, s) ∧ ∃ m, ∀ fuel, m ≤ fuel →
    frameText traceObj fuel traceOpts 0 (traceIn2 y) s = .ub := by
  obtain ⟨y, s, cl, h1, h2, h3, rfl⟩ := trace_found (trace_at 6 rfl)
  refine ⟨y, _, h1, ?_⟩
  have hf : FrameFor (traceIn2 y) traceFacts2 := ⟨rfl, rfl, rfl, rfl, rfl, rfl, rfl, rfl, rfl⟩
  have ho : FnOffset traceSections [traceUnit] traceFacts2 (some (traceEntry 65 (traceFun 0x68 0x1100))) (some 21) :=
    .start (n := 0x1100) (.low (.own (trace_at 6 rfl) rfl) ⟨_, _, rfl, rfl, .const (by decide)⟩) (by decide) (by decide)
  exact C80_not_file trace_obj h2 (o := traceOpts) (no := 0) hf h3 rfl rfl rfl trace_h (fun p h => nomatch h) ho trace_kids2 trace_told2
    trace_h_chain rfl trace_lines trace_plain (trace_inlined (trace_at 7 rfl))
    ⟨_, _, _, _, _, _, _, .own (trace_at 7 rfl) rfl, rfl, rfl, .const (n := 9) (.inl rfl) (by decide)⟩ (by decide)

/-! ### A unit without lines -/

def nestObj : ObjDwarf := ⟨nestSections, none, fun _ => .exc⟩

theorem nest_obj : ObjOk nestObj [nestUnit] := ⟨nest_ok.1, nest_ok.2.2, nest_ok.2.1, by
  intro uo x h
  simp only [placeUnits, List.mem_cons, List.not_mem_nil, or_false, Prod.mk.injEq] at h
  obtain ⟨_, rfl⟩ := h
  exact ⟨0x1000, .inl ⟨0, rfl, ⟨_, _, rfl, rfl, .const (by decide)⟩, by decide⟩⟩, fun _ h => nomatch h⟩

def nestEntry : EntryRef := ⟨0, nestUnit, 23, nestFunc 0x1000 0x20⟩
def nestFacts : FrameFacts := ⟨0x401001, false, [], some (asciiText "/bin/x"), 0x1001, 0x400000, some nestEntry, none, some ⟨asciiText "g.h", 7⟩⟩
def nestIn (y : DIE) : FrameIn := ⟨0x401001, false, [], 0x1001, some (asciiText "/bin/x"), 0x400000, some y, none, [(asciiText "g.h", 7)], callCtx 0x1001⟩

theorem nest_declared {o po : Nat} {e pe : DieEntry} (h : ((po, pe), (o, e)) ∈ nestTop.withParent (12, nestRoot)) (h1 : NoLink e) (h2 : isUnitTag e.decl.tag = false) (h3 : e.find 3 = none)
    (hs : Scopes nestSections [nestUnit] 0 nestUnit po pe []) : DeclaredAs nestSections [nestUnit] 0 nestUnit o e [] [] :=
  .here (by simp [placeUnits]) (by unfold ParentOf; rw [nest_placed]; exact h) h1 h2 (.anonymous h3) hs

theorem nest_scope : Scopes nestSections [nestUnit] 0 nestUnit 12 nestRoot [] := .unit (nest_entries.2 ⟨rfl, rfl, by simp⟩) ⟨rfl, rfl⟩ rfl

theorem nest_func_scope : Scopes nestSections [nestUnit] 0 nestUnit 23 (nestFunc 0x1000 0x20) [] :=
  .other (po := 12) (pe := nestRoot) (by simp [placeUnits] : (0, nestUnit) ∈ placeUnits 0 [nestUnit]) (by unfold ParentOf; rw [nest_placed]; exact List.mem_cons_self) ⟨rfl, rfl⟩ rfl rfl nest_scope

theorem nest_first_chain : InlineChain nestSections [nestUnit] 0 nestUnit (0x1001#64).toNat (23, nestFunc 0x1000 0x20) nestKids [(33, nestLeaf 0x1000 4)] := by
  have hf : SaysIn nestSections [nestUnit] 0 nestUnit (0x1001#64).toNat (23, nestFunc 0x1000 0x20) := nest_in (nest_bounds (.inr rfl) (by decide)) (by decide) (by decide)
  refine .more (.inr ⟨fun h => nest_not_both (by rw [nest_all]; simp) _ ⟨hf, h⟩, .leaf, rfl, nest_in (nest_bounds (.inr rfl) (by decide)) (by decide) (by decide)⟩) ?_ .leaf (.stop ?_)
  · rintro c (⟨h, _⟩ | ⟨_, h, h', _⟩)
    · cases h
    · have hmem := reaches_mem h
      simp only [nestKids, Forest.all, Forest.firsts, List.map_cons, List.map_append, List.map_nil, List.nil_append, List.append_nil, List.mem_cons, List.not_mem_nil, or_false] at hmem
      rcases hmem with rfl | rfl | rfl | rfl <;> decide
  · rintro c (⟨h, _⟩ | ⟨_, h, _⟩)
    · cases h
    · cases h

/-- `C80_not_lines` applies to it. -/
theorem C80_lines_example : ∃ y s, infoOffsetToDIE nestSections 23 IState.empty = .ok (y, s) ∧ ∃ m, ∀ fuel, m ≤ fuel →
    ∃ s', frameText nestObj fuel ⟨false, false, false, false⟩ 0 (nestIn y) s = .ok (asciiText "#0  inlined            in #0  0x0000000000401001 in <unknown>()+1 in /bin/x at g.h:7\n", s') := by
  obtain ⟨y, s, h1, h2, h3, h4⟩ := C56_find nest_ok.1 nest_ok.2.1 .start (nest_entries.2 ⟨rfl, rfl, List.mem_cons_of_mem _ List.mem_cons_self⟩ : EntryIn _ 0 nestUnit 23 _)
  refine ⟨y, s, h1, ?_⟩
  have hf : FrameFor (nestIn y) nestFacts := ⟨rfl, rfl, rfl, rfl, rfl, rfl, rfl, rfl, rfl⟩
  have ho : FnOffset nestSections [nestUnit] nestFacts (some nestEntry) (some 1) :=
    .start (n := 0x1000) (.low (.own (nest_entries.2 ⟨rfl, rfl, by simp [nestEntry]⟩) rfl) ⟨_, _, rfl, rfl, .const (by decide)⟩) (by decide) (by decide)
  have := C80_not_lines nest_obj h3 (o := ⟨false, false, false, false⟩) (no := 0) (p := nestEntry) hf (call_frame (pc := 0x1001) (by decide)) ⟨h4, h2⟩ rfl rfl (by decide +kernel) ⟨rfl, rfl, rfl⟩ rfl rfl
    (nest_declared (by simp [nestTop, Forest.withParent, nestEntry]) ⟨rfl, rfl⟩ rfl rfl nest_scope) (fun p h => nomatch h) ho nest_kids_func
    (fun b hb => nest_told _ ((tree_kids_sub nest_kids_func).mem hb)) nest_first_chain (.hidden rfl)
    (.cons (nest_declared (po := 23) (pe := nestFunc 0x1000 0x20) (by simp [nestTop, nestKids, Forest.withParent]) ⟨rfl, rfl⟩ rfl rfl nest_func_scope) (fun p h => nomatch h) .nil)
  have e : asciiText "#0  inlined            in #0  0x0000000000401001 in <unknown>()+1 in /bin/x at g.h:7\n" = (([qualified [] []].map (fun n => frameNumber 0 ++ (asciiText "inlined            in " ++ n))).flatten ++
    functionLine (shows ⟨false, false, false, false⟩) 0 nestFacts (asciiText "/bin/x") (nestFacts.shownName (qualified [] [])) [] (some 1) (some ⟨asciiText "g.h", 7⟩)) := by decide +kernel
  rw [e]
  exact this

/-- A frame in no object. -/
def traceOut : FrameFacts := ⟨0x7000, true, asciiText "frame pointer", none, 0, 0, none, none, none⟩
def traceInOut : FrameIn := ⟨0x7000, true, asciiText "frame pointer", 0, none, 0, none, none, [], callCtx 0x1015⟩

/-- C81 applies to two frames. -/
theorem C81_example : ∃ y s, infoOffsetToDIE traceSections 34 IState.empty = .ok (y, s) ∧ ∃ m, ∀ fuel, m ≤ fuel →
    ∃ S, stackText (fun _ => traceObj) fuel traceOpts ⟨some (0x7f00, 1), 42, some (asciiText "x")⟩ [(0, traceIn y), (0, traceInOut)] (fun _ => s) =
      .ok (asciiText "thread: 0x7f00, type: 1, lwp: 42, name: x\n#0  inlined            in g at g.h:7\n#0  0x0000000000401015 in f(a=-3)+21 in /bin/x at a.c:12\n#1  0x0000000000007000 no information for frame\n", S) := by
  obtain ⟨y, s, cl, h1, h2, h3, rfl⟩ := trace_found (trace_at 3 rfl)
  refine ⟨y, _, h1, ?_⟩
  have hf : FrameFor traceInOut traceOut := ⟨rfl, rfl, rfl, rfl, rfl, rfl, rfl, trivial⟩
  have hx : FramesText knowsSome Supported (fun _ => traceSections) (fun _ => [traceUnit]) (fun _ => traceObj.line) (shows traceOpts) 0 [(0, traceFacts, callState 0x1015), (0, traceOut, callState 0x1015)] _ :=
    .cons (trace_text 0) (.cons (.outside rfl) .nil)
  have := C81_stack_partial (objs := fun _ => traceObj) (us := fun _ => [traceUnit]) (fun _ => trace_obj) (cls := fun _ => cl) (fun _ => h2) (o := traceOpts)
    (fs := [(0, traceIn y), (0, traceInOut)]) (.cons (trace_frame y) (call_frame (pc := 0x1015) (by decide)) h3 (.cons hf (call_frame (pc := 0x1015) (by decide)) trivial .nil))
    hx ⟨some (0x7f00, 1), 42, some (asciiText "x")⟩
  have e : asciiText "thread: 0x7f00, type: 1, lwp: 42, name: x\n#0  inlined            in g at g.h:7\n#0  0x0000000000401015 in f(a=-3)+21 in /bin/x at a.c:12\n#1  0x0000000000007000 no information for frame\n" =
    stackHeading (some (0x7f00, 1)) 42 (some (asciiText "x")) ++ (traceText 0 ++ ((frameNumber (0 + 1) ++ (asciiText "0x" ++ (hex16 traceOut.pc.toNat ++ (asciiText " no information for frame" ++
      ((if (shows traceOpts).detail then asciiText " via " ++ traceOut.mechanism else []) ++ asciiText "\n"))))) ++ [])) := by decide +kernel
  rw [e]
  exact this

end Pstack.Props
