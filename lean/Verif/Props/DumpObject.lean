import Verif.Model.DumpObject
import Verif.Spec.DumpObject
import Verif.Props.StackJson
/-
C102: the dump of an ELF object.
-/
namespace Pstack.Props
open Pstack.Reader Pstack.Elf Pstack.Spec Pstack.Json Pstack.DumpCfa Pstack.DumpObject

theorem segName_plain (t : Nat) : PlainText (segmentName t) := by
  unfold segmentName
  repeat' split
  all_goals decide

theorem flags_plain (n : Nat) : ∀ s ∈ flagStrings n, PlainText s := by
  intro s hs
  unfold flagStrings at hs
  have : s ∈ ["PF_R", "PF_W", "PF_X"] := by
    revert hs
    cases n.testBit 2 <;> cases n.testBit 1 <;> cases n.testBit 0 <;> simp <;> grind
  have all : ∀ s ∈ ["PF_R", "PF_W", "PF_X"], PlainText s := by decide
  exact all s this

theorem flags_spec (n : Nat) : flagStrings n = segFlags n := by
  unfold flagStrings segFlags
  have e0 : n.testBit 0 = decide (n / 1 % 2 = 1) := by rw [Nat.testBit_eq_decide_div_mod_eq]
  have e1 : n.testBit 1 = decide (n / 2 % 2 = 1) := by rw [Nat.testBit_eq_decide_div_mod_eq]
  have e2 : n.testBit 2 = decide (n / 4 % 2 = 1) := by rw [Nat.testBit_eq_decide_div_mod_eq]
  rw [e0, e1, e2]
  simp only [List.filterMap_cons, List.filterMap_nil, decide_eq_true_eq]
  by_cases h0 : n / 1 % 2 = 1 <;> by_cases h1 : n / 2 % 2 = 1 <;> by_cases h2 : n / 4 % 2 = 1 <;> simp only [h0, h1, h2, if_true, if_false] <;> rfl

/-- The extra members for a dynamic segment. -/
def dynMembers (dyn : Phdr → Tree (List Nat)) (p : Phdr) : List (List Nat × JVal) :=
  if p.type = 2 then [(charCodes "dynamic", value (dyn p))] else []

theorem seg_tree (order : List String → List String) (ho : ∀ l, (order l).Perm l) (dyn : Phdr → Tree (List Nat)) (p : Phdr)
    (hd : PlainTree (dyn p)) :
    segTree lit order (fun p => held (dyn p)) p = held (segTree charCodes order dyn p) ∧
    value (segTree charCodes order dyn p) = segObject (segmentName p.type) (order (segFlags p.flags)) (dynMembers dyn p) p ∧
    PlainTree (segTree charCodes order dyn p) := by
  have hf : ∀ s ∈ order (flagStrings p.flags), PlainText s := fun s hs => flags_plain _ s ((ho _).mem_iff.1 hs)
  have f1 : (order (flagStrings p.flags)).map (fun s => Tree.str (lit s)) =
      heldItems ((order (flagStrings p.flags)).map (fun s => Tree.str (charCodes s))) := by
    have := held_list id (fun s => Tree.str (charCodes s)) (fun s => Tree.str (lit s)) (order (flagStrings p.flags))
      (fun s hs => by simp only [id, held, utf8s_codes (hf s hs)])
    simpa using this
  have f2 := values_list (fun s => Tree.str (charCodes s)) (fun s => JVal.str (charCodes s)) (order (flagStrings p.flags))
      (fun s hs => by simp only [value, utf16s_codes (hf s hs)])
  have f3 := plain_list (fun s => Tree.str (charCodes s)) (order (flagStrings p.flags))
      (fun s hs => by rw [PlainTree]; exact plain_codes (hf s hs))
  have hn := segName_plain p.type
  unfold segTree segObject dynMembers
  refine ⟨?_, ?_, ?_⟩
  · rw [held, held_append, f1]
    simp only [held, heldFields, utf8s_codes hn, utf8s_codes (show PlainText "offset" by decide), utf8s_codes (show PlainText "vaddr" by decide),
      utf8s_codes (show PlainText "paddr" by decide), utf8s_codes (show PlainText "filesz" by decide),
      utf8s_codes (show PlainText "memsz" by decide), utf8s_codes (show PlainText "type" by decide),
      utf8s_codes (show PlainText "flags" by decide), utf8s_codes (show PlainText "alignment" by decide)]
    by_cases h : p.type = 2
    · simp only [h, if_true, heldFields, utf8s_codes (show PlainText "dynamic" by decide)]
    · simp only [h, if_false, heldFields]
  · rw [value, members_append]
    simp only [value, members, flags_spec, utf16s_codes hn, utf16s_codes (show PlainText "offset" by decide),
      utf16s_codes (show PlainText "vaddr" by decide),
      utf16s_codes (show PlainText "paddr" by decide), utf16s_codes (show PlainText "filesz" by decide),
      utf16s_codes (show PlainText "memsz" by decide), utf16s_codes (show PlainText "type" by decide),
      utf16s_codes (show PlainText "flags" by decide), utf16s_codes (show PlainText "alignment" by decide)]
    rw [← flags_spec, f2]
    by_cases h : p.type = 2
    · simp only [h, if_true, members, utf16s_codes (show PlainText "dynamic" by decide)]
    · simp only [h, if_false, members]
  · rw [PlainTree]
    refine plain_append _ _ ?_ ?_
    · simp only [PlainTree, PlainFields, and_true, true_and]
      exact ⟨plain_codes (by decide), plain_codes (by decide), plain_codes (by decide), plain_codes (by decide), plain_codes (by decide),
        plain_codes (by decide), plain_codes hn, plain_codes (by decide), f3, plain_codes (by decide)⟩
    · by_cases h : p.type = 2
      · simp only [h, if_true, PlainFields, and_true]
        exact ⟨plain_codes (by decide), hd⟩
      · simp only [h, if_false, PlainFields]

/-- The members for the segments. -/
def segMembers (order : List String → List String) (dyn : Phdr → Tree (List Nat)) (gs : List (Nat × List Phdr)) : List (List Nat × JVal) :=
  gs.map (fun g => (charCodes (segmentName g.1), .arr (g.2.map (fun p =>
    segObject (segmentName p.type) (order (segFlags p.flags)) (dynMembers dyn p) p))))

theorem segs_tree (order : List String → List String) (ho : ∀ l, (order l).Perm l) (dyn : Phdr → Tree (List Nat))
    (hd : ∀ p, PlainTree (dyn p)) (gs : List (Nat × List Phdr)) :
    segmentsTree lit order (fun p => held (dyn p)) gs = held (segmentsTree charCodes order dyn gs) ∧
    value (segmentsTree charCodes order dyn gs) = .obj (segMembers order dyn gs) ∧ PlainTree (segmentsTree charCodes order dyn gs) := by
  unfold segmentsTree segMembers
  rw [held, value, PlainTree]
  induction gs with
  | nil => exact ⟨by simp [heldFields], by simp [members], by simp [PlainFields]⟩
  | cons g gs ih =>
    obtain ⟨i1, i2, i3⟩ := ih
    have hn := segName_plain g.1
    have g1 := held_list id (segTree charCodes order dyn) (segTree lit order (fun p => held (dyn p))) g.2
      (fun p _ => (seg_tree order ho dyn p (hd p)).1)
    rw [List.map_id] at g1
    have g2 := values_list _ _ g.2 (fun p _ => (seg_tree order ho dyn p (hd p)).2.1)
    have g3 := plain_list _ g.2 (fun p _ => (seg_tree order ho dyn p (hd p)).2.2)
    simp only [Tree.obj.injEq, true_and, JVal.obj.injEq] at i1 i2
    simp only [List.map_cons]
    rw [heldFields, members, PlainFields, ← i1, i2, held, value, g1, g2, PlainTree, utf8s_codes hn, utf16s_codes hn]
    exact ⟨rfl, rfl, plain_codes hn, g3, i3⟩

/-- The other parts, as the program holds them. -/
def othersHeld (o : Others (List Nat)) : Others (List Byte) :=
  ⟨held o.sections, fun p => held (o.dyn p), held o.notes, held o.versions, o.interpreter.map utf8s⟩

def OthersPlain (o : Others (List Nat)) : Prop :=
  PlainTree o.sections ∧ (∀ p, PlainTree (o.dyn p)) ∧ PlainTree o.notes ∧ PlainTree o.versions ∧ ∀ i, o.interpreter = some i → ∀ c ∈ i, Plain c

/-- The value for an object, with these members for its segments. -/
def objectValue (o : Others (List Nat)) (type abi : String) (entry : Nat) (segments : List (List Nat × JVal)) : JVal :=
  .obj ([(charCodes "type", .str (charCodes type)), (charCodes "entry", .int entry), (charCodes "abi", .str (charCodes abi)),
    (charCodes "sections", value o.sections), (charCodes "segments", .obj segments), (charCodes "notes", value o.notes),
    (charCodes "versioninfo", value o.versions)] ++
    ((o.interpreter.map (fun i => [(charCodes "interpreter", JVal.str (utf16s i))])).getD []))

theorem object_text (order : List String → List String) (ho : ∀ l, (order l).Perm l) (o : Others (List Nat)) (h : OthersPlain o)
    (type entry brand : Nat) (gs : List (Nat × List Phdr)) (t a : String) (ht : DumpObject.typeNames[type]? = some t)
    (ha : abiNames[brand]? = some a) :
    ∃ txt, dumpObject order (othersHeld o) type entry brand gs = .ok txt ∧
      parseJson txt = some (objectValue o t a entry (segMembers order o.dyn gs)) := by
  obtain ⟨h1, h2, h3, h4, h5⟩ := h
  obtain ⟨s1, s2, s3⟩ := segs_tree order ho o.dyn h2 gs
  have pt : PlainText t := by
    have all : ∀ s ∈ DumpObject.typeNames, PlainText s := by decide
    exact all t (List.mem_of_getElem? ht)
  have pa : PlainText a := by
    have all : ∀ s ∈ abiNames, PlainText s := by decide
    exact all a (List.mem_of_getElem? ha)
  have hi : ∃ fs, (∀ i, o.interpreter = some i → fs = [(charCodes "interpreter", Tree.str i)]) ∧ (o.interpreter = none → fs = []) ∧
      PlainFields fs ∧ members fs = (o.interpreter.map (fun i => [(charCodes "interpreter", JVal.str (utf16s i))])).getD [] := by
    cases hc : o.interpreter with
    | none => exact ⟨[], by simp, by simp, by simp [PlainFields], by simp [members]⟩
    | some i =>
      refine ⟨_, fun j hj => (by cases hj; rfl), by simp, ?_, ?_⟩
      · simp only [PlainFields, PlainTree, and_true]
        exact ⟨plain_codes (by decide), h5 i hc⟩
      · simp only [members, value, utf16s_codes (show PlainText "interpreter" by decide)]
        rfl
  obtain ⟨fs, f1, f2, f3, f4⟩ := hi
  obtain ⟨txt, p1, p2⟩ := C39_round_trip_partial (.obj true ([(charCodes "type", .str (charCodes t)), (charCodes "entry", .int entry),
    (charCodes "abi", .str (charCodes a)), (charCodes "sections", o.sections),
    (charCodes "segments", segmentsTree charCodes order o.dyn gs), (charCodes "notes", o.notes), (charCodes "versioninfo", o.versions)] ++ fs))
    (by
      rw [PlainTree]
      refine plain_append _ _ ?_ f3
      simp only [PlainTree, PlainFields, and_true, true_and]
      exact ⟨plain_codes (by decide), plain_codes pt, plain_codes (by decide), plain_codes (by decide), plain_codes pa,
        plain_codes (by decide), h1, plain_codes (by decide), s3, plain_codes (by decide), h3, plain_codes (by decide), h4⟩)
  rw [held, held_append] at p1
  rw [value, members_append, f4] at p2
  refine ⟨txt, ?_, ?_⟩
  · unfold dumpObject objectTree othersHeld
    simp only [ht, ha]
    rw [Res.bind_ok, ← p1, s1]
    simp only [held, heldFields, utf8s_codes pt, utf8s_codes pa, utf8s_codes (show PlainText "type" by decide),
      utf8s_codes (show PlainText "entry" by decide), utf8s_codes (show PlainText "abi" by decide),
      utf8s_codes (show PlainText "sections" by decide), utf8s_codes (show PlainText "segments" by decide),
      utf8s_codes (show PlainText "notes" by decide), utf8s_codes (show PlainText "versioninfo" by decide)]
    cases hc : o.interpreter with
    | none => rw [f2 hc]; simp [heldFields]
    | some i =>
      rw [f1 i hc]
      simp only [held, heldFields, Option.map_some, utf8s_codes (show PlainText "interpreter" by decide)]
  · rw [p2]
    unfold objectValue
    simp only [value, members, s2, utf16s_codes pt, utf16s_codes pa, utf16s_codes (show PlainText "type" by decide),
      utf16s_codes (show PlainText "entry" by decide), utf16s_codes (show PlainText "abi" by decide),
      utf16s_codes (show PlainText "sections" by decide), utf16s_codes (show PlainText "segments" by decide),
      utf16s_codes (show PlainText "notes" by decide), utf16s_codes (show PlainText "versioninfo" by decide)]

theorem type_names (n : Nat) : DumpObject.typeNames[n]? = elfObjType n := by
  match n with
  | 0 | 1 | 2 | 3 | 4 => rfl
  | n + 5 => rfl

theorem abi_names (n : Nat) : abiNames[n]? = elfBrand n := by
  match n with
  | 0 | 1 | 2 | 3 | 4 | 5 | 6 | 7 | 8 | 9 | 10 | 11 | 12 => rfl
  | n + 13 => rfl

/-- The types of segments that the program has names for. -/
def KnownSeg (t : Nat) : Prop := t < 8 ∨ t = 0x6474e550 ∨ t = 0x6474e551 ∨ t = 0x6474e552

theorem seg_known (t : Nat) (h : KnownSeg t) : elfSegType t = some (segmentName t) := by
  rcases h with h | h | h | h
  · have : ∀ t : Fin 8, elfSegType t.1 = some (segmentName t.1) := by decide
    exact this ⟨t, h⟩
  all_goals subst h; rfl

/-- The members that the segments should have: one for each type, with the name of the type and the segments of it in order, each with
its fields and its flags in some order. -/
def SegmentsShown (dyn : Phdr → Tree (List Nat)) (gs : List (Nat × List Phdr)) (ms : List (List Nat × JVal)) : Prop :=
  ∃ (name : Nat → String) (flags : Phdr → List String), (∀ g ∈ gs, elfSegType g.1 = some (name g.1)) ∧
    (∀ p, (flags p).Perm (segFlags p.flags)) ∧
    ms = gs.map (fun g => (charCodes (name g.1), .arr (g.2.map (fun p => segObject (name g.1) (flags p) (dynMembers dyn p) p))))

/-- C102. For every object of a known type and brand, with segments of known types, the text is a JSON text for an object with the names
of its type and brand, its entry point, its interpreter if it has one, and its segments. Missing: other types, brands and segments
(below); what is given in `Others`; strings that C39 excludes. -/
theorem C102_object_partial (order : List String → List String) (ho : ∀ l, (order l).Perm l) (o : Others (List Nat)) (h : OthersPlain o)
    (type entry brand : Nat) (gs : List (Nat × List Phdr)) (ht : type ≤ 4) (hb : brand ≤ 12)
    (hg : ∀ g ∈ gs, KnownSeg g.1 ∧ ∀ p ∈ g.2, p.type = g.1) :
    ∃ txt t a ms, dumpObject order (othersHeld o) type entry brand gs = .ok txt ∧
      parseJson txt = some (objectValue o t a entry ms) ∧ elfObjType type = some t ∧ elfBrand brand = some a ∧
      SegmentsShown o.dyn gs ms := by
  have e1 : ∃ t, DumpObject.typeNames[type]? = some t := ⟨_, List.getElem?_eq_getElem (show type < DumpObject.typeNames.length from (show type < 5 by omega))⟩
  have e2 : ∃ a, abiNames[brand]? = some a := ⟨_, List.getElem?_eq_getElem (show brand < abiNames.length from (show brand < 13 by omega))⟩
  obtain ⟨t, e1⟩ := e1
  obtain ⟨a, e2⟩ := e2
  obtain ⟨txt, p1, p2⟩ := object_text order ho o h type entry brand gs t a e1 e2
  refine ⟨txt, t, a, _, p1, p2, by rw [← type_names, e1], by rw [← abi_names, e2], segmentName, fun p => order (segFlags p.flags), ?_, ?_, ?_⟩
  · exact fun g hm => seg_known g.1 (hg g hm).1
  · exact fun p => ho _
  · unfold segMembers
    refine List.map_congr_left (fun g hm => ?_)
    congr 2
    exact List.map_congr_left (fun p hp => by rw [(hg g hm).2 p hp])

/-- C102 fails for other types of object, and other brands: the behaviour is undefined for every such object. -/
theorem C102_not_defined (order : List String → List String) (o : Others (List Byte)) (type entry brand : Nat) (gs : List (Nat × List Phdr))
    (h : 4 < type ∨ 12 < brand) : dumpObject order o type entry brand gs = .ub := by
  have : objectTree lit order o type entry brand gs = .ub := by
    unfold objectTree
    rcases h with h | h
    · rw [show DumpObject.typeNames[type]? = none from List.getElem?_eq_none (show 5 ≤ type by omega)]
    · rw [show abiNames[brand]? = none from List.getElem?_eq_none (show 13 ≤ brand by omega)]
      cases DumpObject.typeNames[type]? <;> rfl
  unfold dumpObject
  rw [this]
  rfl

/-- C102 fails for other types of segments, such as PT_GNU_PROPERTY: their name is that of no type, and if there are two such types the
object for the segments has two members of the same name. -/
theorem C102_not_named (order : List String → List String) (ho : ∀ l, (order l).Perm l) (o : Others (List Nat)) (h : OthersPlain o)
    (type entry brand : Nat) (ht : type ≤ 4) (hb : brand ≤ 12) (t1 t2 : Nat) (l1 l2 : List Phdr) (h1 : ¬ KnownSeg t1) (h2 : ¬ KnownSeg t2) :
    ∃ txt t a v1 v2, dumpObject order (othersHeld o) type entry brand [(t1, l1), (t2, l2)] = .ok txt ∧
      parseJson txt = some (objectValue o t a entry
        [(charCodes "invalid program header type", v1), (charCodes "invalid program header type", v2)]) := by
  have key : ∀ t, ¬ KnownSeg t → segmentName t = "invalid program header type" := by
    intro t ht
    unfold KnownSeg at ht
    unfold segmentName
    simp only [show t ≠ 0 by omega, show t ≠ 1 by omega, show t ≠ 2 by omega, show t ≠ 3 by omega, show t ≠ 4 by omega,
      show t ≠ 5 by omega, show t ≠ 6 by omega, show t ≠ 7 by omega, show t ≠ 0x6474e550 by omega, show t ≠ 0x6474e551 by omega,
      show t ≠ 0x6474e552 by omega, if_false]
  have e1 : ∃ t, DumpObject.typeNames[type]? = some t := ⟨_, List.getElem?_eq_getElem (show type < DumpObject.typeNames.length from (show type < 5 by omega))⟩
  have e2 : ∃ a, abiNames[brand]? = some a := ⟨_, List.getElem?_eq_getElem (show brand < abiNames.length from (show brand < 13 by omega))⟩
  obtain ⟨t, e1⟩ := e1
  obtain ⟨a, e2⟩ := e2
  obtain ⟨txt, p1, p2⟩ := object_text order ho o h type entry brand [(t1, l1), (t2, l2)] t a e1 e2
  unfold segMembers at p2
  simp only [List.map_cons, List.map_nil, key t1 h1, key t2 h2] at p2
  exact ⟨txt, t, a, _, _, p1, p2⟩

/-- An executable with two kinds of segments that meets the hypotheses of `C102_object_partial`; PT_GNU_PROPERTY has an ELF name but is
not one the program knows. -/
theorem C102_example :
    OthersPlain ⟨.null, fun _ => .list [], .list [], .null, some [0x2f, 0x6c]⟩ ∧
    (∀ g ∈ [((1 : Nat), [(⟨1, 5, 0, 0, 0, 4096, 4096, 4096⟩ : Phdr), ⟨1, 6, 4096, 8192, 8192, 64, 128, 4096⟩]), (2, [⟨2, 6, 4096, 8192, 8192, 32, 32, 8⟩])],
      KnownSeg g.1 ∧ ∀ p ∈ g.2, p.type = g.1) ∧
    (∀ l : List String, (l.reverse).Perm l) ∧ segFlags 5 = ["PF_R", "PF_X"] ∧
    ¬ KnownSeg 0x6474e553 ∧ elfSegType 0x6474e553 = some "PT_GNU_PROPERTY" := by
  refine ⟨?_, ?_, List.reverse_perm, by decide, by unfold KnownSeg; decide, rfl⟩
  · simp [OthersPlain, PlainTree, PlainItems, Plain, IsScalar]
  · simp [KnownSeg]

end Pstack.Props
