import Verif.Props.TypeName
import Verif.Props.Die
import Verif.Props.ArgsExample
/-
A unit with types: `C94` applies to it.
-/
namespace Pstack.Props
open Pstack.Reader Pstack.Spec Pstack.Dwarf Pstack.Die Pstack.Args Pstack.TypeName

def tynRoot : DieEntry := ⟨⟨1, 0x11, true, []⟩, []⟩
def tynBase (n : List Byte) : DieEntry := ⟨⟨2, 0x24, false, [⟨3, 0x08, 0⟩]⟩, [.str n]⟩
def tynConst (o : Nat) : DieEntry := ⟨⟨3, 0x26, false, [⟨0x49, 0x11, 0⟩]⟩, [.num o]⟩
def tynPtr (o : Nat) : DieEntry := ⟨⟨4, 0x0f, false, [⟨0x49, 0x11, 0⟩]⟩, [.num o]⟩
def tynRestrict (o : Nat) : DieEntry := ⟨⟨5, 0x37, false, [⟨0x49, 0x11, 0⟩]⟩, [.num o]⟩
def tynFun (o : Nat) : DieEntry := ⟨⟨6, 0x15, true, [⟨0x49, 0x11, 0⟩]⟩, [.num o]⟩
def tynParam (o : Nat) : DieEntry := ⟨⟨7, 0x05, false, [⟨0x49, 0x11, 0⟩]⟩, [.num o]⟩
def tynMore : DieEntry := ⟨⟨8, 0x18, false, []⟩, []⟩

def tynDecls : List DieDecl := [tynRoot.decl, (tynBase []).decl, (tynConst 0).decl, (tynPtr 0).decl, (tynRestrict 0).decl, (tynFun 0).decl, (tynParam 0).decl, tynMore.decl]

def tynInt : DieEntry := tynBase [0x69, 0x6e, 0x74]
def tynChar : DieEntry := tynBase [0x63, 0x68, 0x61, 0x72]

/-- `int`, `char`, `const char`, a pointer to it, `int (const char *, ..., int)`, a pointer to it, a restricted pointer, and a pointer to itself. -/
def tynUnit : DieUnit := ⟨false, 4, 0, 8, [], 0, tynDecls,
  ⟨tynRoot, some (.leaf tynInt (.leaf tynChar (.leaf (tynConst 17) (.leaf (tynPtr 23)
    (.node (tynFun 12) (.leaf (tynParam 25) (.leaf tynMore (.leaf (tynParam 12) .done))) (.leaf (tynPtr 27) (.leaf (tynRestrict 25) (.leaf (tynPtr 39) .done))))))))⟩, []⟩

def tynSections : Sections := ⟨encodeUnits [tynUnit], encodeDecls tynDecls, [], [], [], [], none, none⟩

def tynKids : Forest (Nat × DieEntry) := .leaf (29, tynParam 25) (.leaf (31, tynMore) (.leaf (32, tynParam 12) .done))

def tynTop : Forest (Nat × DieEntry) :=
  .leaf (12, tynInt) (.leaf (17, tynChar) (.leaf (23, tynConst 17) (.leaf (25, tynPtr 23) (.node (27, tynFun 12) tynKids (.leaf (35, tynPtr 27) (.leaf (37, tynRestrict 25) (.leaf (39, tynPtr 39) .done)))))))

theorem tyn_placed : tynUnit.placed 0 = ⟨(11, tynRoot), some tynTop⟩ := by
  simp [tynUnit, tynTop, tynKids, tynRoot, tynBase, tynConst, tynPtr, tynRestrict, tynFun, tynParam, tynMore, tynInt, tynChar, DieUnit.sizes, DieUnit.rootPos, DieUnit.lengthField, DieUnit.header,
    DieUnit.offSize, DieUnit.placed, DieTree.place, Forest.place, Forest.encode, DieEntry.encode, encodeVals, formKind, FormKind.encode, encodeU_small, encodeS_small, leBytes_length]

def tynAll : List (Nat × DieEntry) := [(11, tynRoot), (12, tynInt), (17, tynChar), (23, tynConst 17), (25, tynPtr 23), (27, tynFun 12), (29, tynParam 25), (31, tynMore), (32, tynParam 12), (35, tynPtr 27),
  (37, tynRestrict 25), (39, tynPtr 39)]

theorem tyn_entries {uo : Nat} {x : DieUnit} {o : Nat} {e : DieEntry} : EntryIn [tynUnit] uo x o e ↔ uo = 0 ∧ x = tynUnit ∧ (o, e) ∈ tynAll := by
  have hp : (tynUnit.placed 0).all = tynAll := by rw [tyn_placed]; rfl
  unfold EntryIn
  rw [placeUnits, placeUnits]
  constructor
  · rintro ⟨h1, h2⟩
    simp only [List.mem_cons, List.not_mem_nil, or_false, Prod.mk.injEq] at h1
    obtain ⟨rfl, rfl⟩ := h1
    rw [hp] at h2
    exact ⟨rfl, rfl, h2⟩
  · rintro ⟨rfl, rfl, h⟩
    exact ⟨by simp, by rw [hp]; exact h⟩

/-- What the attributes refer to are entries. -/
def tynRef (a : AttrDecl) : AttrVal → Bool
  | .num n => !(0x11 ≤ a.form && a.form ≤ 0x15 || a.form == 0x10) || (tynAll.any fun p => p.1 == n)
  | _ => true

theorem tyn_ok : InfoOk tynSections [tynUnit] ∧ RefsOk [tynUnit] ∧ SectionsFit tynSections := by
  refine ⟨⟨rfl, ?_, ?_, ?_, ?_⟩, ?_, ⟨by decide, by decide, by decide, by decide, (fun _ h => nomatch h), fun _ h => nomatch h⟩⟩
  · intro x hx
    simp only [List.mem_cons, List.not_mem_nil, or_false] at hx
    subst hx
    refine ⟨⟨by decide, (fun h => by revert h; decide), by decide, (fun h => by cases h), by decide, ?_, by decide, ?_⟩, ?_, by decide, (fun h => by cases h)⟩
    · intro a ha
      simp only [tynUnit, tynDecls, List.mem_cons, List.not_mem_nil, or_false] at ha
      rcases ha with rfl | rfl | rfl | rfl | rfl | rfl | rfl | rfl <;> refine ⟨by decide, by decide, ?_⟩ <;> intro b hb <;>
        simp only [tynRoot, tynBase, tynConst, tynPtr, tynRestrict, tynFun, tynParam, tynMore, List.mem_cons, List.not_mem_nil, or_false] at hb
      all_goals (subst hb; exact ⟨by decide, by decide, by decide⟩)
    · simp [tynUnit, tynDecls, tynRoot, tynBase, tynConst, tynPtr, tynRestrict, tynFun, tynParam, tynMore, tynInt, tynChar, DieUnit.sizes, DieUnit.rootPos, DieUnit.lengthField, DieUnit.header,
        DieUnit.offSize, DieTree.WF, Forest.WF, ValsFit, AttrFits, DieTree.encode, Forest.encode, DieEntry.encode, encodeVals, formKind, FormKind.encode, FormKind.Fits, IsLocalRef, encodeU_small,
        encodeS_small, leBytes_length, GoodName]
    · simp [tynUnit, tynRoot, tynBase, tynConst, tynPtr, tynRestrict, tynFun, tynParam, tynMore, tynInt, tynChar, DieUnit.body, DieUnit.sizes, DieTree.encode, Forest.encode, DieUnit.header,
        DieUnit.offSize, DieEntry.encode, encodeVals, formKind, FormKind.encode, encodeU_small, encodeS_small, leBytes_length]
  · intro x hx
    simp only [List.mem_cons, List.not_mem_nil, or_false] at hx
    subst hx; exact ⟨[], by simp [tynUnit, tynSections]⟩
  · simp [tynSections, encodeUnits, tynUnit, tynRoot, tynBase, tynConst, tynPtr, tynRestrict, tynFun, tynParam, tynMore, tynInt, tynChar, DieUnit.encode, DieUnit.body, DieUnit.sizes,
      DieUnit.lengthField, DieTree.encode, Forest.encode, DieUnit.header, DieUnit.offSize, DieEntry.encode, encodeVals, formKind, FormKind.encode, encodeU_small, encodeS_small, leBytes_length]
  · simp [tynSections, encodeDecls, tynDecls, tynRoot, tynBase, tynConst, tynPtr, tynRestrict, tynFun, tynParam, tynMore, DieDecl.encode, AttrDecl.encode, encodeU_small]
  · intro uo x o e he i a v o' ha hv hn hr
    obtain ⟨rfl, rfl, h⟩ := tyn_entries.1 he
    have hall : tynAll.all (fun p => (p.2.decl.attrs.zip p.2.vals).all fun q => tynRef q.1 q.2) = true := by decide +kernel
    rw [List.all_eq_true] at hall
    have h1 := hall _ h
    rw [List.all_eq_true] at h1
    have hz : (e.decl.attrs.zip e.vals)[i]? = some (a, v) := by rw [List.getElem?_zip_eq_some]; exact ⟨ha, hv⟩
    have h2 := h1 _ (List.mem_of_getElem? hz)
    obtain ⟨n, rfl, hr⟩ := hr
    have hn : o' = n := by rcases hr with ⟨_, h⟩ | ⟨_, h⟩ <;> omega
    have hf : ((decide (0x11 ≤ a.form) && decide (a.form ≤ 0x15)) || a.form == 0x10) = true := by
      rcases hr with ⟨⟨h1, h2⟩, _⟩ | ⟨h, _⟩
      · simp [h1, h2]
      · simp [h]
    simp only [tynRef] at h2
    rw [hf] at h2
    simp only [Bool.not_true, Bool.false_or, List.any_eq_true, beq_iff_eq] at h2
    obtain ⟨p, hp, hpn⟩ := h2
    exact ⟨0, tynUnit, p.2, tyn_entries.2 ⟨rfl, rfl, by rw [hn, ← hpn]; exact hp⟩⟩

def tynEntry (o : Nat) (e : DieEntry) : EntryRef := ⟨0, tynUnit, o, e⟩

theorem tyn_at {p : Nat × DieEntry} (i : Nat) (h : tynAll[i]? = some p) : (p.1, p.2) ∈ tynAll := List.mem_of_getElem? h

theorem tyn_in {o : Nat} {e : DieEntry} (h : (o, e) ∈ tynAll) : (tynEntry o e).In [tynUnit] := tyn_entries.2 ⟨rfl, rfl, h⟩

theorem tyn_named {o : Nat} {n : List Byte} (h : (o, tynBase n) ∈ tynAll) (hn : ∀ b ∈ n, b ≠ 0#8) : NamedAs tynSections [tynUnit] (tynEntry o (tynBase n)) n :=
  .named (.own (tyn_in h) rfl) rfl rfl (.direct rfl hn)

theorem tyn_no_name {o : Nat} {e : DieEntry} (h1 : e.find 3 = none) (h2 : e.find 0x31 = none) (h3 : e.find 0x47 = none) : NamedAs tynSections [tynUnit] (tynEntry o e) [] := .anonymous (.nowhere h1 h2 h3)

theorem tyn_type {o o' : Nat} {e e' : DieEntry} (h : (o, e) ∈ tynAll) (hf : e.find 0x49 = some 0) (ha : e.decl.attrs[0]? = some ⟨0x49, 0x11, 0⟩) (hv : e.vals[0]? = some (.num o')) (h' : (o', e') ∈ tynAll) :
    TypeOf [tynUnit] (tynEntry o e) (some (tynEntry o' e')) :=
  .refers (.own (tyn_in h) hf) ha hv ⟨o', rfl, .inl ⟨by unfold IsLocalRef; decide, (Nat.zero_add _).symm⟩⟩ (tyn_in h')

theorem tyn_int : TypeNamed fourSuffixes tynSections [tynUnit] (some (tynEntry 12 tynInt)) [0x69, 0x6e, 0x74] := .named (tyn_named (tyn_at 1 rfl) (by decide)) (by decide)

theorem tyn_string : TypeNamed fourSuffixes tynSections [tynUnit] (some (tynEntry 25 (tynPtr 23))) (asciiText "char const *") := by
  have e : asciiText "char const *" = ([0x63, 0x68, 0x61, 0x72] ++ asciiText " const") ++ asciiText " *" := by decide +kernel
  rw [e]
  exact .made (tyn_no_name rfl rfl rfl) (by decide +kernel) (tyn_type (tyn_at 4 rfl) rfl rfl rfl (tyn_at 3 rfl))
    (.made (tyn_no_name rfl rfl rfl) (by decide +kernel) (tyn_type (tyn_at 3 rfl) rfl rfl rfl (tyn_at 2 rfl)) (.named (tyn_named (tyn_at 2 rfl) (by decide)) (by decide)))

theorem tyn_function : TypeNamed fourSuffixes tynSections [tynUnit] (some (tynEntry 35 (tynPtr 27))) (asciiText "int(char const *, int) *") := by
  have e : asciiText "int(char const *, int) *" = ([0x69, 0x6e, 0x74] ++ (asciiText "(" ++ (argumentText [asciiText "char const *", [0x69, 0x6e, 0x74]] ++ asciiText ")"))) ++ asciiText " *" := by decide +kernel
  rw [e]
  refine .made (tyn_no_name rfl rfl rfl) (by decide +kernel) (tyn_type (tyn_at 9 rfl) rfl rfl rfl (tyn_at 5 rfl)) ?_
  refine .function (F := tynKids) (rs := [some (tynEntry 25 (tynPtr 23)), some (tynEntry 12 tynInt)]) (tyn_no_name rfl rfl rfl) rfl (tyn_type (tyn_at 5 rfl) rfl rfl rfl (tyn_at 1 rfl)) tyn_int ?_ rfl rfl ?_ ?_
  · show (tynUnit.placed 0).KidsOf (27, tynFun 12) tynKids
    rw [tyn_placed]
    exact .under (.afterLeaf (.afterLeaf (.afterLeaf (.afterLeaf .node))))
  · intro i q r h1 h2
    rcases i with _ | _ | i
    · cases h1; cases h2; exact tyn_type (tyn_at 6 rfl) rfl rfl rfl (tyn_at 4 rfl)
    · cases h1; cases h2; exact tyn_type (tyn_at 8 rfl) rfl rfl rfl (tyn_at 1 rfl)
    · cases h2
  · intro i r t h1 h2
    rcases i with _ | _ | i
    · cases h1; cases h2; exact tyn_string
    · cases h1; cases h2; exact tyn_int
    · cases h2

theorem tyn_found {o : Nat} {e : DieEntry} (h : (o, e) ∈ tynAll) : ∃ y s cl, infoOffsetToDIE tynSections o IState.empty = .ok (y, s) ∧ IHistory tynSections [tynUnit] cl ∧ cl.Holds tynSections y ∧
    cl.st = s ∧ ∀ p : EntryRef, IsEntry tynSections [tynUnit] y p.uo p.x p.o p.e → p = tynEntry o e := by
  obtain ⟨y, s, h1, h2, h3, h4⟩ := C56_find tyn_ok.1 tyn_ok.2.1 .start (tyn_in h)
  refine ⟨y, s, _, h1, h3, h4, rfl, ?_⟩
  rintro ⟨uo, x, o', e'⟩ hp
  have ho : o' = o := hp.2.1.symm.trans h2.2.1
  subst ho
  obtain ⟨rfl, rfl, he⟩ := tyn_entries.1 hp.2.2
  have := places_differ (by decide) he h
  subst this
  rfl

/-- The pointer to a function. -/
theorem C94_example : ∃ y s, infoOffsetToDIE tynSections 35 IState.empty = .ok (y, s) ∧ ∃ m, ∀ fuel rounds depth, m ≤ fuel → m ≤ rounds → m ≤ depth →
    ∃ s', typeName tynSections fuel rounds depth (some y) s = .ok (asciiText "int(char const *, int) *", s') := by
  obtain ⟨y, s, cl, h1, h3, h4, rfl, h5⟩ := tyn_found (tyn_at 9 rfl)
  refine ⟨y, _, h1, ?_⟩
  obtain ⟨p, g1, g2⟩ := C94_name_partial tyn_ok.1 tyn_ok.2.2 tyn_ok.2.1 h3 h4
  cases h5 p g1
  exact g2 _ tyn_function

/-- The restricted pointer, for which the name would be "char const * restrict". -/
theorem C94_handled_example : TypeNamed typeSuffix tynSections [tynUnit] (some (tynEntry 37 (tynRestrict 25))) (asciiText "char const * restrict") ∧
    ∃ y s, infoOffsetToDIE tynSections 37 IState.empty = .ok (y, s) ∧ ∃ m, ∀ fuel rounds depth, m ≤ fuel → 0 < depth →
    ∃ s', typeName tynSections fuel rounds depth (some y) s = .ok (asciiText "(unhandled tag 55)", s') := by
  constructor
  · have e : asciiText "char const * restrict" = (([0x63, 0x68, 0x61, 0x72] ++ asciiText " const") ++ asciiText " *") ++ asciiText " restrict" := by decide +kernel
    rw [e]
    exact .made (tyn_no_name rfl rfl rfl) (by decide +kernel) (tyn_type (tyn_at 10 rfl) rfl rfl rfl (tyn_at 4 rfl))
      (.made (tyn_no_name rfl rfl rfl) (by decide +kernel) (tyn_type (tyn_at 4 rfl) rfl rfl rfl (tyn_at 3 rfl))
      (.made (tyn_no_name rfl rfl rfl) (by decide +kernel) (tyn_type (tyn_at 3 rfl) rfl rfl rfl (tyn_at 2 rfl)) (.named (tyn_named (tyn_at 2 rfl) (by decide)) (by decide))))
  · obtain ⟨y, s, cl, h1, h3, h4, rfl, h5⟩ := tyn_found (tyn_at 10 rfl)
    refine ⟨y, _, h1, ?_⟩
    obtain ⟨p, g1, g2⟩ := C94_not_handled tyn_ok.1 tyn_ok.2.2 tyn_ok.2.1 h3 h4
    cases h5 p g1
    have e : asciiText "(unhandled tag 55)" = asciiText "(unhandled tag " ++ (decimalText 55 ++ asciiText ")") := by decide +kernel
    rw [e]
    exact g2 _ (tyn_no_name rfl rfl rfl) (tyn_type (tyn_at 10 rfl) rfl rfl rfl (tyn_at 4 rfl)) (by decide +kernel) (by decide)

/-- The pointer to itself. -/
theorem C94_circle_example : ∃ y s, infoOffsetToDIE tynSections 39 IState.empty = .ok (y, s) ∧ ∃ m, ∀ fuel rounds depth, m ≤ fuel → typeName tynSections fuel rounds depth (some y) s = .ub := by
  obtain ⟨y, s, cl, h1, h3, h4, rfl, h5⟩ := tyn_found (tyn_at 11 rfl)
  refine ⟨y, _, h1, ?_⟩
  obtain ⟨p, g1, g2⟩ := C94_not_circle tyn_ok.1 tyn_ok.2.2 tyn_ok.2.1 h3 h4
  cases h5 p g1
  exact g2 (asciiText " *") (tyn_no_name rfl rfl rfl) (tyn_type (tyn_at 11 rfl) rfl rfl rfl (tyn_at 11 rfl)) (by decide +kernel)

end Pstack.Props
