import Verif.Props.Source
import Verif.Props.StackTextExample
/-
C91 applies to a frame in the unit of Props/StackTextExample.lean, which is found by .debug_aranges.
-/
namespace Pstack.Props
open Pstack.Reader Pstack.Spec Pstack.Dwarf Pstack.Die Pstack.Args Pstack.Lines Pstack.StackText

/-- The unit has the addresses from 0x1000 to 0x1200. -/
def traceSet : ArangeSet := ⟨2, 0, 8, [0, 0, 0, 0], [(0x1000, 0x200)]⟩
def traceAranges : List Byte := encodeSets [traceSet]

theorem trace_sets : ArangesOk (some traceAranges) [traceSet] := by
  refine ⟨?_, .inl rfl, by decide +kernel⟩
  intro x hx
  simp only [List.mem_cons, List.not_mem_nil, or_false] at hx
  subst hx
  refine ⟨by decide, by decide, .inr rfl, rfl, ?_, by decide +kernel⟩
  intro t ht
  simp only [traceSet, List.mem_cons, List.not_mem_nil, or_false] at ht
  subst ht
  decide

theorem trace_unit {uo : Nat} {x : DieUnit} (h : (uo, x) ∈ placeUnits 0 [traceUnit]) : uo = 0 ∧ x = traceUnit := by
  simpa only [placeUnits, List.mem_cons, List.not_mem_nil, or_false, Prod.mk.injEq] using h

theorem trace_no_list (uo lo hi : Nat) : ¬ListRange traceSections [traceUnit] uo lo hi := by
  rintro ⟨x, l, h1, ⟨i, _, _, h, _⟩, _⟩
  obtain ⟨_, rfl⟩ := trace_unit h1
  cases h

theorem trace_has {uo lo hi : Nat} : UnitHas traceSections [traceUnit] [traceSet] uo lo hi ↔ uo = 0 ∧ lo = 0x1000 ∧ hi = 0x1200 := by
  constructor
  · rintro (⟨x, h1, h2, n, h3, h4⟩ | ⟨x, h1, h2⟩ | h)
    · simp only [List.mem_cons, List.not_mem_nil, or_false] at h1
      subst h1
      simp only [traceSet, List.mem_cons, List.not_mem_nil, or_false, Prod.mk.injEq] at h3
      obtain ⟨rfl, rfl⟩ := h3
      exact ⟨h2.symm, rfl, h4⟩
    · obtain ⟨_, rfl⟩ := trace_unit h1
      obtain ⟨⟨i, j, _, _, _, _, _, _, _, h, _⟩, _⟩ := h2
      cases h
    · exact absurd h (trace_no_list _ _ _)
  · rintro ⟨rfl, rfl, rfl⟩
    exact .inl ⟨traceSet, by simp, rfl, 0x200, by simp [traceSet], rfl⟩

theorem trace_addrs : ObjAddrs traceObj [traceUnit] (some traceAranges) [traceSet] := by
  refine ⟨trace_obj, trace_sets, ?_, ⟨?_, ?_, ?_⟩, by simp⟩
  · intro uo x h
    obtain ⟨_, rfl⟩ := trace_unit h
    exact ⟨by decide, by decide, .inr (.inl (by decide)), .inl (by decide)⟩
  · intro uo lo hi h
    have h := trace_has.1 h
    omega
  · intro uo lo hi uo' lo' hi' h h'
    have h := trace_has.1 h
    have h' := trace_has.1 h'
    omega
  · intro x hx
    simp only [List.mem_cons, List.not_mem_nil, or_false] at hx
    subst hx
    exact ⟨traceUnit, trace_mem⟩

theorem trace_unitAt {addr : Nat} (h1 : 0x1000 ≤ addr) (h2 : addr < 0x1200) : UnitAt traceSections [traceUnit] [traceSet] addr 0 traceUnit :=
  ⟨trace_mem, 0x1000, 0x1200, trace_has.2 ⟨rfl, rfl, rfl⟩, h1, h2, .inl (trace_no_list _ _ _)⟩

theorem trace_rootAt : traceUnit.rootAt 0 = (11, traceRoot) := by
  have h := congrArg DieTree.root trace_placed
  exact h

theorem trace_no_ranges {addr : Nat} {a : Nat × DieEntry} (h : a.2.find 0x55 = none) : ∀ l, EntryRanges traceSections [traceUnit] 0 traceUnit a.1 a.2 l → ∀ r ∈ l, addr ≠ r.2 := by
  rintro l ⟨i, _, _, h', _⟩
  rw [h] at h'; cases h'

theorem trace_nothing {a : Nat × DieEntry} (h1 : a.2.find 0x12 = none) (h2 : a.2.find 0x55 = none) (h3 : a.2.find 0x31 = none) (h4 : a.2.find 0x47 = none) : SaysNothing [traceUnit] 0 a :=
  ⟨.inr h1, .nowhere h2 h3 h4⟩

theorem trace_told_all : ∀ b ∈ traceAll, Told traceSections [traceUnit] 0 traceUnit (0x1003#64).toNat b := by
  intro b hb
  simp only [traceAll, List.mem_cons, List.not_mem_nil, or_false] at hb
  rcases hb with rfl | rfl | rfl | rfl | rfl | rfl | rfl | rfl
  · exact ⟨.inr (.inr (trace_nothing rfl rfl rfl rfl)), trace_no_ranges rfl⟩
  · exact ⟨.inr (.inr (trace_nothing rfl rfl rfl rfl)), trace_no_ranges rfl⟩
  · exact ⟨.inr (.inr (trace_nothing rfl rfl rfl rfl)), trace_no_ranges rfl⟩
  · exact trace_told_in (trace_fun_bounds _ (by decide)) rfl (by decide)
  · exact trace_told_param
  · exact ⟨.inr (.inl (.inl ⟨_, _, trace_inl_bounds _ _ (by decide), by decide⟩)), trace_no_ranges rfl⟩
  · exact ⟨.inr (.inl (.inl ⟨_, _, trace_fun_bounds _ (by decide), by decide⟩)), trace_no_ranges rfl⟩
  · exact ⟨.inr (.inl (.inl ⟨_, _, trace_inl_bounds _ _ (by decide), by decide⟩)), trace_no_ranges rfl⟩

theorem trace_root_not_out (addr : Nat) : ¬SaysOut traceSections [traceUnit] 0 traceUnit addr (11, traceRoot) := by
  rintro (⟨lo, hi, ⟨i, j, _, _, _, _, _, _, _, h, _⟩, _⟩ | ⟨l, ⟨i, _, _, h, _⟩, _⟩) <;> cases h

theorem trace_kids_top : (traceUnit.placed 0).KidsOf (11, traceRoot) traceTop := by rw [trace_placed]; exact .root

/-- The function of 0x1003 is `f`. -/
theorem trace_function : FunctionOf traceSections [traceUnit] [traceSet] (0x1003#64).toNat (some (traceEntry 34 (traceFun 0x66 0x1000))) := by
  have hin : SaysIn traceSections [traceUnit] 0 traceUnit (0x1003#64).toNat (34, traceFun 0x66 0x1000) := .inl ⟨_, _, trace_fun_bounds _ (by decide), by decide, by decide⟩
  refine .found (uo := 0) (x := traceUnit) (F := traceTop) (a := (34, traceFun 0x66 0x1000)) (trace_unitAt (by decide) (by decide)) ?_ ?_ ?_ ?_ <;> rw [trace_rootAt]
  · exact trace_kids_top
  · intro b hb
    refine trace_told_all b ?_
    have := (tree_kids_sub trace_kids_top).mem hb
    rwa [trace_placed] at this
  · exact .inr ⟨trace_root_not_out _, .afterLeaf (.afterLeaf .node), rfl, hin⟩
  · rintro b (⟨h, _⟩ | ⟨_, h, h', h''⟩)
    · cases h
    · have hmem := reaches_mem h
      simp only [traceTop, traceKids, traceKids2, Forest.all, Forest.firsts, List.map_cons, List.map_nil, List.nil_append, List.append_nil, List.cons_append, List.mem_cons, List.not_mem_nil, or_false] at hmem
      rcases hmem with rfl | rfl | rfl | rfl | rfl | rfl | rfl <;> first | (exfalso; revert h'; decide) | skip
      · exfalso
        rcases h'' with ⟨lo, hi, ⟨i, j, _, _, _, h, _⟩, _⟩ | ⟨l, ⟨i, _, _, h, _⟩, _⟩ <;> cases h
      · exact Nat.le_refl _
      · decide

theorem trace_rows : sampleLineTable.Ended := ⟨by decide +kernel, by
  intro s hs; revert hs; simp [sampleLineTable, LineTable.rows, lineRows, LineOp.step]; intro h; rw [← h]⟩

/-- Its line is 7. -/
theorem trace_source : SourceOf Supported traceSections [traceUnit] [traceSet] traceObj.line false (0x1003#64).toNat (some ⟨asciiText "a.c", 7⟩) := by
  refine .row (uo := 0) (x := traceUnit) (trace_unitAt (by decide) (by decide)) ?_ ?_ rfl trace_lines trace_plain trace_rows ?_
  · rw [trace_rootAt]; exact trace_told_all _ List.mem_cons_self
  · rw [trace_rootAt]; exact trace_root_not_out _
  · exact ⟨0, _, ⟨[0x61#8, 0x2e#8, 0x63#8], 1⟩, [0x73#8], ⟨_, _, rfl, rfl, rfl, by decide, by decide⟩, (fun j hj => absurd hj (Nat.not_lt_zero j)), rfl, rfl, rfl, by decide +kernel, rfl, by decide, by decide⟩

def tracePlace : FrameFacts := ⟨0x401003, false, asciiText "dwarf", some (asciiText "/bin/x"), 0x1003, 0x400000, some (traceEntry 34 (traceFun 0x66 0x1000)), none, some ⟨asciiText "a.c", 7⟩⟩
def tracePlaceIn : FrameIn := ⟨0x401003, false, asciiText "dwarf", 0x1003, some (asciiText "/bin/x"), 0x400000, none, none, [], callCtx 0x1003⟩
def traceShort : TextOpts := ⟨false, false, false, false⟩

theorem trace_place_text : FrameText knowsSome Supported traceSections [traceUnit] traceObj.line (callState 0x1003) (shows traceShort) 0 tracePlace
    (asciiText "#0  0x0000000000401003 in f()+3 in /bin/x at a.c:7\n") := by
  have e : asciiText "#0  0x0000000000401003 in f()+3 in /bin/x at a.c:7\n" = inlinedLines 0 ⟨asciiText "a.c", 7⟩ [] ++
      functionLine (shows traceShort) 0 tracePlace (asciiText "/bin/x") (tracePlace.shownName (qualified [] [0x66])) [] (some 3) (some ⟨asciiText "a.c", 7⟩) := by decide +kernel
  rw [e]
  have ht : ∀ b ∈ (34, traceFun 0x66 0x1000) :: traceKids.all, Told traceSections [traceUnit] 0 traceUnit (0x1003#64).toNat b := by
    intro b hb
    refine trace_told_all b ?_
    simp only [traceKids, Forest.all, Forest.firsts, List.map_cons, List.map_nil, List.mem_cons, List.not_mem_nil, or_false] at hb
    rcases hb with rfl | rfl | rfl <;> simp [traceAll]
  refine .inside (is := []) rfl (.declared trace_f (fun p h => nomatch h)) (.start (n := 0x1000) (.low (.own (trace_at 3 rfl) rfl) ⟨_, _, rfl, rfl, .const (by decide)⟩) (by decide) (by decide))
    (.nothing trace_kids ht (.stop ?_)) (.hidden rfl) (.known rfl (by decide +kernel) (fun i hi => nomatch hi))
  rintro b (⟨h, _⟩ | ⟨_, h, h', h''⟩)
  · cases h
  · have hmem := reaches_mem h
    simp only [traceKids, Forest.all, Forest.firsts, List.map_cons, List.map_nil, List.mem_cons, List.not_mem_nil, or_false] at hmem
    rcases hmem with rfl | rfl
    · revert h'; decide
    · exact says_one trace_ok.1 trace_ok.2.2 trace_ok.2.1 (igood_history trace_ok.1 trace_ok.2.1 (.start (d := traceSections))).st
        (ranges_history trace_ok.1 trace_ok.2.2 trace_ok.2.1 (.start (d := traceSections))) (trace_at 5 rfl) (trace_told_all _ (by simp [traceAll])) h''
        (.inl ⟨_, _, trace_inl_bounds _ _ (by decide), by decide⟩)

theorem trace_located : tracePlace.Located Supported traceSections [traceUnit] [traceSet] traceObj.line (shows traceShort) := fun _ => ⟨trace_function, fun _ => trace_source⟩

/-- C91, of a line: 0x1003 is in line 7. -/
theorem C91_example : ∃ m, ∀ fuel, m ≤ fuel → ∃ a t s, sourceFromAddr traceObj (some traceAranges) fuel false 0x1003 ⟨none, false⟩ IState.empty = .ok ([a], t, s) ∧ a.1 = asciiText "a.c" ∧ a.2.toInt = 7 := by
  obtain ⟨m, hm⟩ := C91_source_partial trace_addrs (.start (d := traceSections)) (addr := 0x1003) trace_source
  refine ⟨m, fun fuel hf => ?_⟩
  obtain ⟨l, t, s, h1, h2, h3⟩ := hm fuel hf
  cases l with
  | nil => exact h3.elim
  | cons a l =>
    cases l with
    | cons => simp at h2
    | nil => exact ⟨a, t, s, h1, h3.1, h3.2⟩

/-- C91, of a stack. -/
theorem C91_example_stack : ∃ m, ∀ fuel, m ≤ fuel → ∃ S, locatedStack (fun _ => traceObj) (fun _ => some traceAranges) fuel traceShort ⟨none, 42, none⟩ [(0, tracePlaceIn)]
    (fun _ => (⟨none, false⟩, IState.empty)) = .ok (asciiText "lwp: 42\n#0  0x0000000000401003 in f()+3 in /bin/x at a.c:7\n", S) := by
  have h := C91_stack_partial (objs := fun _ => traceObj) (us := fun _ => [traceUnit]) (secs := fun _ => some traceAranges) (sets := fun _ => [traceSet]) (fun _ => trace_addrs)
    (A := fun _ => ⟨⟨IState.empty, fun _ => [], fun _ => []⟩, ⟨none, false⟩⟩) (fun _ => .start) (o := traceShort)
    (.cons (k := 0) (f := tracePlaceIn) (g := tracePlace) (c := callState 0x1003) ⟨rfl, rfl, rfl, rfl, rfl, rfl, rfl⟩ (call_frame (by decide)) trace_located .nil)
    (.cons trace_place_text .nil) ⟨none, 42, none⟩
  have e : asciiText "lwp: 42\n#0  0x0000000000401003 in f()+3 in /bin/x at a.c:7\n" = stackHeading none 42 none ++ (asciiText "#0  0x0000000000401003 in f()+3 in /bin/x at a.c:7\n" ++ []) := by decide +kernel
  rw [e]
  exact h

end Pstack.Props
