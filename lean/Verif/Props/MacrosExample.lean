import Verif.Props.Macros
import Verif.Props.StackTextExample
/-
Units with macros: `C82` and `C83` apply to them.
-/
namespace Pstack.Props
open Pstack.Reader Pstack.Spec Pstack.Dwarf Pstack.Die Pstack.Lines Pstack.StackText Pstack.Macros

/-! ### Three units: with a new list, with an old one, with none -/

def macroRoot : DieEntry := ⟨⟨1, 0x11, false, [⟨0x10, 0x17, 0⟩, ⟨0x79, 0x17, 0⟩]⟩, [.num 0, .num 1]⟩
def macinfoRoot : DieEntry := ⟨⟨2, 0x11, false, [⟨0x10, 0x17, 0⟩, ⟨0x43, 0x17, 0⟩]⟩, [.num 0, .num 1]⟩
def plainRoot : DieEntry := ⟨⟨3, 0x11, false, [⟨0x10, 0x17, 0⟩]⟩, [.num 0]⟩
def macroDecls : List DieDecl := [macroRoot.decl, macinfoRoot.decl, plainRoot.decl]

def macroUnit (e : DieEntry) : DieUnit := ⟨false, 4, 0, 8, [], 0, macroDecls, ⟨e, none⟩, []⟩
def macroUnits : List DieUnit := [macroUnit macroRoot, macroUnit macinfoRoot, macroUnit plainRoot]

/-- "D 4" is at 1. -/
def macroStr : List Byte := [0x58, 0x44, 0x20, 0x34, 0]

def macroSections : Sections := ⟨encodeUnits macroUnits, encodeDecls macroDecls, macroStr, sampleLineStr, [], [], none, none⟩

theorem macro_places : placeUnits 0 macroUnits = [(0, macroUnit macroRoot), (20, macroUnit macinfoRoot), (40, macroUnit plainRoot)] := by
  simp [macroUnits, placeUnits, macroUnit, macroRoot, macinfoRoot, plainRoot, DieUnit.encode, DieUnit.body, DieUnit.sizes, DieUnit.lengthField, DieTree.encode, DieUnit.header, DieUnit.offSize, DieEntry.encode,
    encodeVals, formKind, FormKind.encode, encodeU_small, leBytes_length]

theorem macro_mem (i : Nat) {p : Nat × DieUnit} (h : [(0, macroUnit macroRoot), (20, macroUnit macinfoRoot), (40, macroUnit plainRoot)][i]? = some p) : p ∈ placeUnits 0 macroUnits := by
  rw [macro_places]; exact List.mem_of_getElem? h

theorem macro_ok : InfoOk macroSections macroUnits ∧ RefsOk macroUnits ∧ SectionsFit macroSections := by
  refine ⟨⟨rfl, ?_, ?_, ?_, ?_⟩, ?_, ⟨by decide, by decide, by decide, by decide, (fun _ h => nomatch h), fun _ h => nomatch h⟩⟩
  · intro x hx
    simp only [macroUnits, List.mem_cons, List.not_mem_nil, or_false] at hx
    rcases hx with rfl | rfl | rfl
    all_goals
      refine ⟨⟨by decide, (fun h => by revert h; decide), by decide, (fun h => by cases h), by decide, ?_, by decide, ?_⟩, ?_, by decide, (fun h => by cases h)⟩
    any_goals
      intro a ha
      simp only [macroUnit, macroDecls, List.mem_cons, List.not_mem_nil, or_false] at ha
      rcases ha with rfl | rfl | rfl <;> refine ⟨by decide, by decide, ?_⟩ <;> intro b hb <;> simp only [macroRoot, macinfoRoot, plainRoot, List.mem_cons, List.not_mem_nil, or_false] at hb
      all_goals first
        | (subst hb; exact ⟨by decide, by decide, by decide⟩)
        | (rcases hb with rfl | rfl <;> exact ⟨by decide, by decide, by decide⟩)
    all_goals
      simp [macroUnit, macroDecls, macroRoot, macinfoRoot, plainRoot, DieUnit.sizes, DieUnit.rootPos, DieUnit.lengthField, DieUnit.header, DieUnit.offSize, DieTree.WF, DieUnit.body,
        ValsFit, AttrFits, DieTree.encode, DieEntry.encode, encodeVals, formKind, FormKind.encode, FormKind.Fits, IsLocalRef, encodeU_small, leBytes_length, GoodName]
  · intro x hx
    simp only [macroUnits, List.mem_cons, List.not_mem_nil, or_false] at hx
    rcases hx with rfl | rfl | rfl <;> exact ⟨[], by simp [macroUnit, macroSections]⟩
  · simp [macroSections, encodeUnits, macroUnits, macroUnit, macroRoot, macinfoRoot, plainRoot, DieUnit.encode, DieUnit.body, DieUnit.sizes, DieUnit.lengthField, DieTree.encode,
      DieUnit.header, DieUnit.offSize, DieEntry.encode, encodeVals, formKind, FormKind.encode, encodeU_small, leBytes_length]
  · simp [macroSections, encodeDecls, macroDecls, macroRoot, macinfoRoot, plainRoot, DieDecl.encode, AttrDecl.encode, encodeU_small]
  · intro uo x o e he i a v o' ha hv hn hr
    exfalso
    have hf : a.form = 0x17 := by
      obtain ⟨h1, h2⟩ := he
      rw [macro_places] at h1
      simp only [List.mem_cons, List.not_mem_nil, or_false, Prod.mk.injEq] at h1
      have all : ∀ r : DieEntry, (r = macroRoot ∨ r = macinfoRoot ∨ r = plainRoot) → e = r → a.form = 0x17 := by
        rintro r (rfl | rfl | rfl) rfl <;> revert ha <;> rcases i with _ | _ | i <;> intro ha <;> first | (injection ha with ha; subst ha; rfl) | (cases ha)
      rcases h1 with ⟨rfl, rfl⟩ | ⟨rfl, rfl⟩ | ⟨rfl, rfl⟩ <;> rw [show (DieUnit.placed (macroUnit _) _).all = [(_, _)] from rfl, List.mem_singleton, Prod.mk.injEq] at h2
      · exact all _ (.inl rfl) h2.2
      · exact all _ (.inr (.inl rfl)) h2.2
      · exact all _ (.inr (.inr rfl)) h2.2
    obtain ⟨n, rfl, hr⟩ := hr
    rcases hr with ⟨⟨h1, h2⟩, _⟩ | ⟨h, _⟩ <;> omega

theorem macro_bases : BasesKnown macroSections macroUnits := by
  intro uo x h
  rw [macro_places] at h
  simp only [List.mem_cons, List.not_mem_nil, or_false, Prod.mk.injEq] at h
  rcases h with ⟨_, rfl⟩ | ⟨_, rfl⟩ | ⟨_, rfl⟩ <;> exact ⟨0, .inr ⟨⟨rfl, rfl, rfl⟩, rfl⟩⟩

def macroObj : ObjDwarf := ⟨macroSections, some sampleLineTable.encode, fun _ => .exc⟩

theorem macro_obj : ObjOk macroObj macroUnits := ⟨macro_ok.1, macro_ok.2.2, macro_ok.2.1, macro_bases, by
  intro sec h
  injection h with h
  subst h
  decide +kernel⟩

theorem macro_table : sampleLineTable.WF macroSections.lineStr macroSections.str := by
  obtain ⟨h1, h2, h3, h4, h5, h6, h7, h8⟩ := sampleLineTable_wf.1
  exact ⟨h1, h2, h3, h4, h5, h6, h7, h8⟩

theorem macro_lines : MacroLines Supported macroSections (some sampleLineTable.encode) (macroUnit macroRoot) (some 0) (some sampleLineTable.tables) :=
  ⟨by decide, _, _, [], rfl, by simp, macro_table, (fun h => absurd h (by decide)), trace_plain, rfl⟩

theorem macro_at : MacrosAt (macroUnit macroRoot) 1 := .inr ⟨⟨rfl, rfl, rfl⟩, 1, _, _, rfl, rfl, rfl, .offset rfl (by decide)⟩
theorem macinfo_at : MacinfoAt (macroUnit macinfoRoot) 1 := ⟨⟨rfl, rfl, rfl⟩, ⟨rfl, rfl, rfl⟩, 1, _, _, rfl, rfl, rfl, .offset rfl (by decide)⟩

/-! ### A list that imports another -/

/-- "a.c" is entered, "A 1" defined on line 3, then what the other list says, then "D 4" on line 5; and "a.c" is left. -/
def macroList : MacroList := ⟨5, false, some 0, some [(0xe0, [0x0b])], [.enter 0 1, .define 3 (asciiText "A 1"), .imports 40, .defineAt 5 1, .leave]⟩
/-- "B" is defined on line 7, and undefined on line 8. -/
def macroInner : MacroList := ⟨4, true, none, none, [.define 7 (asciiText "B"), .undef 8 (asciiText "B")]⟩

def macroBytes (m : MacroList) : List Byte := 0xaa#8 :: m.encode
def macroSec : List Byte := macroBytes macroList ++ (List.replicate (39 - macroList.encode.length) 0xbb ++ macroInner.encode)

theorem macroList_wf : macroList.WF := by
  refine ⟨by decide, ?_, ?_⟩
  · intro n h; injection h with h; subst h; decide
  · intro l h; injection h with h; subst h
    refine ⟨by decide, ?_⟩
    intro p hp
    simp only [List.mem_cons, List.not_mem_nil, or_false] at hp
    subst hp
    decide

theorem macroInner_wf : macroInner.WF := ⟨by decide, (fun _ h => nomatch h), fun _ h => nomatch h⟩

theorem macro_inner_at : MacroListAt macroSec 40 macroInner := ⟨macroInner_wf, [], by
  have h : macroList.encode.length = 33 := by
    simp [macroList, MacroList.encode, MacroList.header, MacroList.itemBytes, MacroList.width, MacroList.flags, optBytes, vendorBytes, MacroItem.encode, encodeU_small, leBytes_length, show (asciiText "A 1").length = 3 from by decide +kernel]
  unfold macroSec macroBytes
  rw [h, List.append_nil, ← List.append_assoc, List.drop_append_of_le_length (by simp [h]), List.drop_of_length_le (by simp [h])]
  rfl⟩

/-- The events, in this order. -/
def macroEvents : List MacroEvent := [.enter 0 [0x73] ⟨asciiText "a.c", 1⟩, .define 3 (asciiText "A 1"), .define 7 (asciiText "B"), .undef 8 (asciiText "B"), .define 5 (asciiText "D 4"), .leave]

theorem macro_says : MacroSays (sameSize (macroUnit macroRoot)) Supported macroSections (some sampleLineTable.encode) macroSec (macroUnit macroRoot) macroList.wide (some sampleLineTable.tables) macroList.items macroEvents :=
  .enter (by decide) (by decide) rfl rfl (.define (by decide) (by unfold GoodName; decide +kernel)
    (.imports (es' := [.define 7 (asciiText "B"), .undef 8 (asciiText "B")]) (by decide) macro_inner_at (show MacroLines _ _ _ _ none none from rfl)
      (.define (by decide) (by unfold GoodName; decide +kernel) (.undef (by decide) (by unfold GoodName; decide +kernel) .nil))
      (.defineAt ⟨rfl, by decide⟩ (by decide) (by decide) ⟨by unfold GoodName; decide +kernel, [], by decide +kernel⟩ (.leave .nil))))

theorem macro_open (i : Nat) {p : Nat × DieUnit} (h : [(0, macroUnit macroRoot), (20, macroUnit macinfoRoot), (40, macroUnit plainRoot)][i]? = some p) :
    ∃ u, openUnit macroSections.info macroSections.abbr p.1 = .ok u := by
  obtain ⟨u, _, h⟩ := opened macro_ok.1 (macro_mem i h)
  exact ⟨u, h.isOpen⟩

/-- One who stops after four is told of four. -/
theorem C82_example : ∃ u, openUnit macroSections.info macroSections.abbr 0 = .ok u ∧ ∃ k, ∀ fuel, k ≤ fuel → ∃ mac s, getMacros ⟨macroObj, some macroSec, none⟩ fuel u IState.empty = .ok (some mac, s) ∧
    (∃ s', visit ⟨macroObj, some macroSec, none⟩ fuel u mac (fun _ _ => true) s = ⟨macroEvents.map MacroEvent.call, some (.ok (true, s'))⟩) ∧
    (∃ s', visit ⟨macroObj, some macroSec, none⟩ fuel u mac (fun told _ => decide (told.length < 3)) s = ⟨(macroEvents.take 4).map MacroEvent.call, some (.ok (false, s'))⟩) ∧
    mac.opcodes 0xe0 = some [0x0b] := by
  obtain ⟨u, hu⟩ := macro_open 0 rfl
  have hlen : macroSec.length < W64 := by decide +kernel
  have hat : MacroListAt macroSec 1 macroList := ⟨macroList_wf, _, rfl⟩
  obtain ⟨k, hk⟩ := C82_visit_partial (q := ⟨macroObj, some macroSec, none⟩) macro_obj .start (macro_mem 0 rfl) hu rfl hlen macro_at hat macro_lines macro_says
  refine ⟨u, hu, k + 1, fun fuel hf => ?_⟩
  obtain ⟨mac, s, g1, g2⟩ := hk fuel (by omega)
  obtain ⟨mac', s', g3, g4, g5⟩ := C82_vendor (q := ⟨macroObj, some macroSec, none⟩) macro_obj .start (macro_mem 0 rfl) hu rfl hlen macro_at hat macro_lines (fuel := fuel) (by omega)
  rw [g1] at g3
  injection g3 with g3
  injection g3 with g3 _
  injection g3 with g3
  subst g3
  exact ⟨mac, s, g1, g2 _, g2 _, (g5 _ rfl (by decide)).1 _ List.mem_cons_self⟩

/-! ### Lists that are not read right -/

/-- A list with the line table, and one without. -/
def brokenList (w : Bool) (lines : Option Nat) (vendor : Option (List (Nat × List Byte))) : MacroList := ⟨5, w, lines, vendor, []⟩

def brokenPre : List MacroItem := [.define 3 (asciiText "A 1")]
def brokenEvents : List MacroEvent := [.define 3 (asciiText "A 1")]

theorem broken_says {sec : List Byte} {w : Bool} {t : Option LineTables} :
    MacroSays (sameSize (macroUnit macroRoot)) Supported macroSections (some sampleLineTable.encode) sec (macroUnit macroRoot) w t brokenPre brokenEvents :=
  .define (by decide) (by unfold GoodName; decide +kernel) .nil

def brokenSec (m : MacroList) (tail : List Byte) : List Byte := 0xaa#8 :: (m.header ++ ((brokenPre.map (MacroItem.encode m.width)).flatten ++ tail))

theorem broken_wf (w : Bool) : (brokenList w none none).WF := ⟨(by decide : 5 < 2 ^ 16), (fun _ h => nomatch h), fun _ h => nomatch h⟩

/-- A list of one entry at the end of the section. -/
theorem C82_not_end_example : ∃ u, openUnit macroSections.info macroSections.abbr 0 = .ok u ∧ ∃ k, ∀ fuel, k ≤ fuel → ∃ mac s,
    getMacros ⟨macroObj, some (brokenSec (brokenList false none none) []), none⟩ fuel u IState.empty = .ok (some mac, s) ∧
    visit ⟨macroObj, some (brokenSec (brokenList false none none) []), none⟩ fuel u mac (fun _ _ => true) s = ⟨brokenEvents.map MacroEvent.call, some .ub⟩ := by
  obtain ⟨u, hu⟩ := macro_open 0 rfl
  obtain ⟨k, hk⟩ := C82_not_end (q := ⟨macroObj, some (brokenSec (brokenList false none none) []), none⟩) macro_obj .start (macro_mem 0 rfl) hu rfl (by decide +kernel) macro_at (broken_wf false)
    (show MacroLines _ _ _ _ none none from rfl) broken_says (by unfold brokenSec; rw [List.append_nil]; rfl)
  refine ⟨u, hu, k, fun fuel hf => ?_⟩
  obtain ⟨mac, s, g1, g2⟩ := hk fuel hf
  exact ⟨mac, s, g1, g2 _ (fun _ _ => rfl)⟩

def brokenEnter : List Byte := brokenSec (brokenList false none none) ((MacroItem.enter 0 1).encode 4 ++ [0])

/-- File 1 is entered, but the list does not say which line table it is in. -/
theorem C82_not_lines_example : ∃ u, openUnit macroSections.info macroSections.abbr 0 = .ok u ∧ ∃ k, ∀ fuel, k ≤ fuel → ∃ mac s,
    getMacros ⟨macroObj, some brokenEnter, none⟩ fuel u IState.empty = .ok (some mac, s) ∧ visit ⟨macroObj, some brokenEnter, none⟩ fuel u mac (fun _ _ => true) s = ⟨brokenEvents.map MacroEvent.call, some .ub⟩ := by
  obtain ⟨u, hu⟩ := macro_open 0 rfl
  obtain ⟨k, hk⟩ := C82_not_lines (q := ⟨macroObj, some brokenEnter, none⟩) macro_obj .start (macro_mem 0 rfl) hu rfl (by decide +kernel) macro_at (broken_wf false)
    (show MacroLines _ _ _ _ none none from rfl) broken_says rfl (l := 0) (i := 1) (rest := [0]) (by decide) (by decide) rfl
  refine ⟨u, hu, k, fun fuel hf => ?_⟩
  obtain ⟨mac, s, g1, g2⟩ := hk fuel hf
  exact ⟨mac, s, g1, g2 _ (fun _ _ => rfl)⟩

def brokenVendor : List Byte := brokenSec (brokenList false none (some [(0xe0, [0x0b])])) ((MacroItem.other 0xe0 [4]).encode 4 ++ ([0] ++ []))

/-- Entry 0xe0, which has one byte as its operand, and that is 4. -/
theorem C82_not_operands_example : ∃ u, openUnit macroSections.info macroSections.abbr 0 = .ok u ∧ ∃ k, ∀ fuel, k ≤ fuel → ∃ mac s,
    getMacros ⟨macroObj, some brokenVendor, none⟩ fuel u IState.empty = .ok (some mac, s) ∧
    ∃ s', visit ⟨macroObj, some brokenVendor, none⟩ fuel u mac (fun _ _ => true) s = ⟨(brokenEvents ++ [MacroEvent.leave]).map MacroEvent.call, some (.ok (true, s'))⟩ := by
  obtain ⟨u, hu⟩ := macro_open 0 rfl
  have hwf : (brokenList false none (some [(0xe0, [0x0b])])).WF := ⟨by decide, (fun _ h => nomatch h), by
    intro l h; injection h with h; subst h
    refine ⟨by decide, ?_⟩
    intro p hp
    simp only [List.mem_cons, List.not_mem_nil, or_false] at hp
    subst hp
    decide⟩
  obtain ⟨k, hk⟩ := C82_not_operands (q := ⟨macroObj, some brokenVendor, none⟩) macro_obj .start (macro_mem 0 rfl) hu rfl (by decide +kernel) macro_at hwf
    (show MacroLines _ _ _ _ none none from rfl) broken_says (c := 0xe0) (rest := []) (by decide) (by decide) rfl rfl
  refine ⟨u, hu, k, fun fuel hf => ?_⟩
  obtain ⟨mac, s, g1, g2⟩ := hk fuel hf
  exact ⟨mac, s, g1, g2 _ (fun _ _ => rfl)⟩

def brokenWide : List Byte := brokenSec (brokenList true none none) ((MacroItem.defineAt 5 1).encode 8 ++ ((MacroItem.define 6 (asciiText "E")).encode 8 ++ [0]))

/-- "D 4" by its position, then "E", which is lost. -/
theorem C82_not_width_example : ∃ u, openUnit macroSections.info macroSections.abbr 0 = .ok u ∧ ∃ k, ∀ fuel, k ≤ fuel → ∃ mac s,
    getMacros ⟨macroObj, some brokenWide, none⟩ fuel u IState.empty = .ok (some mac, s) ∧
    ∃ s', visit ⟨macroObj, some brokenWide, none⟩ fuel u mac (fun _ _ => true) s = ⟨(brokenEvents ++ [MacroEvent.define 5 (asciiText "D 4")]).map MacroEvent.call, some (.ok (true, s'))⟩ := by
  obtain ⟨u, hu⟩ := macro_open 0 rfl
  obtain ⟨k, hk⟩ := C82_not_width (q := ⟨macroObj, some brokenWide, none⟩) macro_obj .start (macro_mem 0 rfl) hu rfl (by decide +kernel) macro_at (broken_wf true)
    (show MacroLines _ _ _ _ none none from rfl) broken_says rfl rfl (by decide) (l := 5) (p := 1) (str := asciiText "D 4") (rest := (MacroItem.define 6 (asciiText "E")).encode 8 ++ [0]) (by decide) (by decide)
    ⟨by unfold GoodName; decide +kernel, [], by decide +kernel⟩ rfl
  refine ⟨u, hu, k, fun fuel hf => ?_⟩
  obtain ⟨mac, s, g1, g2⟩ := hk fuel hf
  exact ⟨mac, s, g1, g2 _ (fun _ _ => rfl)⟩

def brokenOffset : List Byte := 0xaa#8 :: ((brokenList false (some 0x80000000) none).header ++ [0])

/-- A line table at 2^31. -/
theorem C82_not_offset_example : ∃ u, openUnit macroSections.info macroSections.abbr 0 = .ok u ∧ ∃ mac s, getMacros ⟨macroObj, some brokenOffset, none⟩ 1 u IState.empty = .ok (some mac, s) ∧
    visit ⟨macroObj, some brokenOffset, none⟩ 1 u mac (fun _ _ => true) s = ⟨[], some .exc⟩ := by
  obtain ⟨u, hu⟩ := macro_open 0 rfl
  have hwf : (brokenList false (some 0x80000000) none).WF := ⟨by decide, (fun n h => by injection h with h; subst h; decide), fun _ h => nomatch h⟩
  obtain ⟨mac, s, g1, g2⟩ := C82_not_offset (q := ⟨macroObj, some brokenOffset, none⟩) macro_obj .start (macro_mem 0 rfl) hu rfl (by decide +kernel) macro_at hwf rfl (by decide) (by decide) rfl (by decide +kernel)
    (rest := [0]) rfl (Nat.le_refl 1)
  exact ⟨u, hu, mac, s, g1, g2 _⟩

def brokenCircle : List Byte := 0xaa#8 :: ((brokenList false none none).header ++ ((MacroItem.imports 1).encode 4 ++ [0]))

theorem C82_not_circle_example : ∃ u, openUnit macroSections.info macroSections.abbr 0 = .ok u ∧ ∃ mac s, getMacros ⟨macroObj, some brokenCircle, none⟩ 1 u IState.empty = .ok (some mac, s) ∧
    ∀ fuel, visit ⟨macroObj, some brokenCircle, none⟩ fuel u mac (fun _ _ => true) s = ⟨[], none⟩ := by
  obtain ⟨u, hu⟩ := macro_open 0 rfl
  obtain ⟨mac, s, g1, g2⟩ := C82_not_circle (q := ⟨macroObj, some brokenCircle, none⟩) macro_obj .start (macro_mem 0 rfl) hu rfl (by decide +kernel) macro_at (broken_wf false) rfl (by decide) (rest := [0]) rfl (Nat.le_refl 1)
  exact ⟨u, hu, mac, s, g1, fun fuel => g2 fuel _⟩

theorem C82_none_example : ∃ u, openUnit macroSections.info macroSections.abbr 40 = .ok u ∧ ∃ s, getMacros ⟨macroObj, some macroSec, none⟩ 1 u IState.empty = .ok (none, s) := by
  obtain ⟨u, hu⟩ := macro_open 2 rfl
  exact ⟨u, hu, C82_none (q := ⟨macroObj, some macroSec, none⟩) macro_obj .start (macro_mem 2 rfl) hu ⟨⟨rfl, rfl, rfl⟩, ⟨rfl, rfl, rfl⟩, rfl, rfl, rfl⟩ (Nat.le_refl 1)⟩

/-! ### An old list -/

def macinfoItems : List MacinfoItem := [.enter 0 1, .define 3 (asciiText "A 1"), .undef 4 (asciiText "A"), .leave]
def macinfoEvents : List MacroEvent := [.enter 0 [0x73] ⟨asciiText "a.c", 1⟩, .define 3 (asciiText "A 1"), .undef 4 (asciiText "A"), .leave]

theorem macinfo_files : UnitFiles Supported macroSections (some sampleLineTable.encode) (macroUnit macinfoRoot) (some sampleLineTable.tables) :=
  ⟨_, _, rfl, ⟨rfl, macro_table, (fun h => absurd h (by decide)), 0, _, _, 0, [], rfl, rfl, rfl, .offset rfl (by decide), by simp⟩, trace_plain, rfl⟩

theorem macinfo_says : MacinfoSays (some sampleLineTable.tables) macinfoItems macinfoEvents :=
  .enter rfl (by decide) (by decide) rfl rfl (.define (by decide) (by unfold GoodName; decide +kernel) (.undef (by decide) (by unfold GoodName; decide +kernel) (.leave .nil)))

def macinfoSec : List Byte := 0xaa#8 :: (macinfoBytes macinfoItems ++ [0xbb])

/-- Says to stop at each definition. -/
def onlyFiles : Visitor
  | _, .startFile .. | _, .endFile => true
  | _, _ => false

/-- To one who stops where the file is entered, and to one who would stop at each definition. -/
theorem C83_example : ∃ u, openUnit macroSections.info macroSections.abbr 20 = .ok u ∧ ∃ mac s s', getMacros ⟨macroObj, none, some macinfoSec⟩ 9 u IState.empty = .ok (some mac, s) ∧
    visit ⟨macroObj, none, some macinfoSec⟩ 9 u mac (fun _ _ => true) s = ⟨macinfoEvents.map MacroEvent.call, some (.ok (true, s'))⟩ ∧
    visit ⟨macroObj, none, some macinfoSec⟩ 9 u mac (fun told _ => decide (told.length ≠ 0)) s = ⟨(macinfoEvents.take 1).map MacroEvent.call, some (.ok (false, s'))⟩ ∧
    visit ⟨macroObj, none, some macinfoSec⟩ 9 u mac onlyFiles s = ⟨macinfoEvents.map MacroEvent.call, some (.ok (true, s'))⟩ := by
  obtain ⟨u, hu⟩ := macro_open 1 rfl
  obtain ⟨mac, s, g1, s', g2⟩ := macinfo_told (q := ⟨macroObj, none, some macinfoSec⟩) macro_obj .start (macro_mem 1 rfl) hu rfl (by decide +kernel) macinfo_at macinfo_files macinfo_says (rest := [0xbb]) rfl (fuel := 9) (by decide)
  exact ⟨u, hu, mac, s, s', g1, g2 _, g2 _, g2 _⟩

def macinfoVendor : List Byte := 0xaa#8 :: ((macinfoItems.map MacinfoItem.encode).flatten ++ ((MacinfoItem.vendor 4 []).encode ++ ((MacinfoItem.define 6 (asciiText "E")).encode ++ [0])))

theorem C83_not_vendor_example : ∃ u, openUnit macroSections.info macroSections.abbr 20 = .ok u ∧ ∃ mac s, getMacros ⟨macroObj, none, some macinfoVendor⟩ 9 u IState.empty = .ok (some mac, s) ∧
    ∃ s', visit ⟨macroObj, none, some macinfoVendor⟩ 9 u mac (fun _ _ => true) s = ⟨(macinfoEvents ++ [MacroEvent.leave]).map MacroEvent.call, some (.ok (true, s'))⟩ := by
  obtain ⟨u, hu⟩ := macro_open 1 rfl
  obtain ⟨mac, s, g1, s', g2⟩ := C83_not_vendor (q := ⟨macroObj, none, some macinfoVendor⟩) macro_obj .start (macro_mem 1 rfl) hu rfl (by decide +kernel) macinfo_at macinfo_files macinfo_says
    (rest := (MacinfoItem.define 6 (asciiText "E")).encode ++ [0]) rfl (fuel := 9) (by decide)
  exact ⟨u, hu, mac, s, g1, s', g2 _ (fun _ _ => rfl)⟩

end Pstack.Props
