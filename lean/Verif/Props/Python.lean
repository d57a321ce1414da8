import Verif.Proof.PythonBad
/-
C45, C61-C67: Python (python.tcc, python2.cc, python3.cc, python.cc).
-/
namespace Pstack.Props
open Pstack.Python Pstack.Spec

theorem prints_eq {cfg : Config} {mem : Mem} {a : Nat} {t t' : Text} (h : Prints cfg mem a t) (e : (t == t') = true) : Prints cfg mem a t' := by
  rw [← eq_of_beq e]; exact h

/-! ### C45: numbers -/

/-- C45: a Python integer between -2^63 and 2^63 (not these themselves) is printed as its value.
(Partial: see below for all others.) -/
theorem C45_integers_partial {cfg : Config} {mem : Mem} {a : Nat} {z : Int} (h : LongAt cfg mem a z) (h1 : -(2 ^ 63) < z) (h2 : z < 2 ^ 63) : Prints cfg mem a (toString z).toList :=
  prints_of (renders (.int 0 [] a z (by omega) h h1 h2))

/-- C45 fails for all other ones: to 2^90, what is printed is the remainder in 64 bits. -/
theorem C45_not_wide {cfg : Config} {mem : Mem} {a : Nat} {z : Int} (h : LongAt cfg mem a z) (h1 : 2 ^ 63 ≤ z) (h2 : z < 2 ^ 90) :
    ∃ v, v % 2 ^ 64 = z % 2 ^ 64 ∧ v < 2 ^ 63 ∧ Prints cfg mem a (toString v).toList := by
  have hv : wrap64 z % 2 ^ 64 = z % 2 ^ 64 ∧ wrap64 z < 2 ^ 63 := by unfold wrap64; omega
  refine ⟨wrap64 z, hv.1, hv.2, long_ok h ?_⟩
  unfold printedLong
  rw [if_neg (by omega), if_neg (by omega)]

theorem C45_not_wide_negative {cfg : Config} {mem : Mem} {a : Nat} {z : Int} (h : LongAt cfg mem a z) (h1 : z ≤ -(2 ^ 63)) (h2 : -(2 ^ 90) < z) :
    (z % 2 ^ 64 = 2 ^ 63 ∧ PrintUndefined cfg mem a) ∨ ∃ v, v % 2 ^ 64 = z % 2 ^ 64 ∧ -(2 ^ 63) < v ∧ Prints cfg mem a (toString v).toList := by
  by_cases hw : wrap64 z.natAbs = -(2 ^ 63)
  · refine Or.inl ⟨by unfold wrap64 at hw; omega, long_ub h ?_⟩
    unfold printedLong
    rw [if_neg (by omega), if_pos (by omega), if_pos hw]
  · have hv : -(wrap64 z.natAbs) % 2 ^ 64 = z % 2 ^ 64 ∧ -(2 ^ 63) < -(wrap64 z.natAbs) := by unfold wrap64; omega
    refine Or.inr ⟨-(wrap64 z.natAbs), hv.1, hv.2, long_ok h ?_⟩
    unfold printedLong
    rw [if_neg (by omega), if_pos (by omega), if_neg hw]

/-- From there on, shifts are too wide. -/
theorem C45_not_huge {cfg : Config} {mem : Mem} {a : Nat} {z : Int} (h : LongAt cfg mem a z) (h1 : 2 ^ 90 ≤ z.natAbs) : PrintUndefined cfg mem a :=
  long_ub h (by unfold printedLong; rw [if_pos h1])

theorem C45_example : Prints sampleCfg sampleMem 0x2040 "-1099511627781".toList := C45_integers_partial sample_big (by decide) (by decide)

/-! ### C61: lines -/

/-- C61: for every line table as CPython writes it (2, and 3 to 3.9), with any steps, and every instruction, the line is the one of the last step at or before the instruction. -/
theorem C61_line {cfg : Config} {mem : Mem} {first lasti : Int} {table : Nat} {steps : List LineStep} (h : LinesAt cfg mem table steps) (hs : StepsOk cfg.two 0 first steps) :
    getLine cfg mem first table lasti = .ok (lineAt lasti 0 first steps) := getLine_at h hs

theorem C61_example : getLine sampleCfg sampleMem 12 0x2980 10 = .ok 17 := C61_line sample_lines (by simp [StepsOk, sampleSteps, sampleCfg])

/-- A step that takes several pairs, forward and back. -/
theorem C61_example_wide : lineTable false [⟨600, 300⟩, ⟨2, -200⟩] = [255#8, 0#8, 255#8, 0#8, 90#8, 127#8, 0#8, 127#8, 0#8, 46#8, 2#8, 128#8, 0#8, 184#8] ∧
    lineAt 601 0 1 [⟨600, 300⟩, ⟨2, -200⟩] = 301 ∧ lineAt 602 0 1 [⟨600, 300⟩, ⟨2, -200⟩] = 101 := by decide

/-! ### C62: dictionaries -/

/-- C62: of a dictionary of Python 3 every entry its table refers to is written, in the order of the table, for every size and fill of the table.
(Partial: shown at levels to `maxdepth`; with a split table, see `C62_not_split`; for Python 2 see `C62_two_partial`.) -/
theorem C62_dict_partial {cfg : Config} {mem : Mem} {a : Nat} {pairs : List (Nat × Nat)} {t : Text} {S' : List Nat} (htwo : cfg.two = false) (hmax : 1 ≤ cfg.maxdepth) (h : DictAt cfg mem a pairs)
    (hp : Renders cfg mem 2 [a] (.pairs pairs) t S') : Prints cfg mem a ("{\n".toList ++ t ++ pyIndent 1 ++ "}".toList) :=
  prints_of (renders (.dict 0 [] a pairs t S' (by omega) htwo h (by simp) (by omega) hp))

theorem sample_pairs (d : Nat) (hd : d ≤ 9000) (S : List Nat) (hS : 0x2380 ∉ S) : Renders sampleCfg sampleMem d S (.pairs [(0x2080, 0x2380), (0x2000, 0x2300)])
    (pyIndent d ++ (['"'] ++ textOf [0x61#8, 0x62#8] ++ ['"']) ++ " : ".toList ++ ("( \n".toList ++ (pyIndent (d + 2) ++ "-1099511627781".toList ++ ",\n".toList ++ []) ++ pyIndent (d + 1) ++ ")\n".toList) ++ "\n".toList ++
     (pyIndent d ++ "7".toList ++ " : ".toList ++ "None".toList ++ "\n".toList ++ [])) (0x2380 :: S) := by
  refine .pairsCons _ _ _ _ _ _ _ _ (0x2380 :: S) _ _ (.str _ _ _ _ (by omega) sample_str.1 sample_str.2) ?_ ?_
  · exact .tuple _ _ _ _ _ _ (by omega) sample_tuple (by decide) hS (.itemsCons _ _ _ _ _ _ _ _ (.int _ _ _ _ (by omega) sample_big (by decide) (by decide)) (.itemsNil _ _))
  · exact .pairsCons _ _ _ _ _ _ _ _ _ _ _ (.int _ _ _ 7 (by omega) sample_seven (by decide) (by decide)) (.pyNone _ _ _ (by omega) sample_none) (.pairsNil _ _)

theorem C62_example : Prints sampleCfg sampleMem 0x2180 "{\n        \"ab\" : ( \n                -1099511627781,\n            )\n\n        7 : None\n    }".toList := by
  have h := C62_dict_partial rfl (by decide) sample_dict (sample_pairs 2 (by omega) [0x2180] (by decide))
  exact prints_eq h (by decide +kernel)

/-- C62 fails for dictionaries with split tables: a key that is not in the dictionary (it has no value; another dictionary with the same table has) is shown, with nothing after it. -/
theorem C62_not_split {cfg : Config} {mem : Mem} {a k k' v : Nat} {t t' tv : Text} {S1 S2 S3 : List Nat} (htwo : cfg.two = false) (hmax : 1 ≤ cfg.maxdepth) (h : DictAt cfg mem a [(k, v), (k', 0)])
    (hk : Renders cfg mem 2 [a] (.obj k) t S1) (hv : Renders cfg mem 2 S1 (.obj v) tv S2) (hk' : Renders cfg mem 2 S2 (.obj k') t' S3) :
    Prints cfg mem a ("{\n".toList ++ (pyIndent 2 ++ t ++ " : ".toList ++ tv ++ "\n".toList ++ (pyIndent 2 ++ t' ++ " : ".toList ++ [] ++ "\n".toList ++ [])) ++ pyIndent 1 ++ "}".toList) :=
  C62_dict_partial htwo hmax h (.pairsCons _ _ _ _ _ _ _ _ _ _ _ hk hv (.pairsCons _ _ _ _ _ _ _ _ _ _ _ hk' (.null _ _ (by omega)) (.pairsNil _ _)))

/-- C62, Python 2: all entries of a dictionary are written, if the last place of its table is not in use. -/
theorem C62_two_partial {cfg : Config} {mem : Mem} {a : Nat} {slots : List (Option (Nat × Nat))} {t : Text} {S' : List Nat} (htwo : cfg.two = true) (hmax : 1 ≤ cfg.maxdepth)
    (h : Dict2At cfg mem a (slots ++ [none])) (hp : Renders cfg mem 2 [a] (.pairs ((slots ++ [none]).filterMap id)) t S') :
    Prints cfg mem a ("{\n".toList ++ t ++ pyIndent 1 ++ "}".toList) :=
  prints_of (renders (.dict2 0 [] a _ t S' (by omega) htwo h (by simp) (by omega) (by simpa using hp)))

/-- C62 fails for Python 2 if it is: what is in the last place is not shown. -/
theorem C62_not_two {cfg : Config} {mem : Mem} {a k v : Nat} {slots : List (Option (Nat × Nat))} {t : Text} {S' : List Nat} (htwo : cfg.two = true) (hmax : 1 ≤ cfg.maxdepth)
    (h : Dict2At cfg mem a (slots ++ [some (k, v)])) (hp : Renders cfg mem 2 [a] (.pairs (slots.filterMap id)) t S') :
    Prints cfg mem a ("{\n".toList ++ t ++ pyIndent 1 ++ "}".toList) :=
  prints_of (renders (.dict2 0 [] a _ t S' (by omega) htwo h (by simp) (by omega) (by simpa using hp)))

/-- A dictionary of Python 2 with a table of eight places: 7 is 7, in the last one, and in the second. -/
def sampleMem2 (last : Nat) : Mem := memOf [(0x1020, 8, 24), (0x1028, 8, 4), (0x1620, 8, 48), (0x2000, 8, 1), (0x2008, 8, 0x1000), (0x2010, 8, 1), (0x2018, 4, 7),
  (0x2180, 8, 1), (0x2188, 8, 0x1600), (0x2198, 8, 1), (0x21a0, 8, 7), (0x21a8, 8, 0x2200), (0x2220, 8, 0x2000), (0x2228, 8, 0x2000), (0x22b0, 8, last), (0x22b8, 8, last)]

def sampleCfg2 : Config := { sampleCfg with two := true }

theorem sample_seven2 : LongAt sampleCfg2 (sampleMem2 0) 0x2000 7 := by
  refine ⟨⟨⟨0, 24, 4, 0, 0⟩, ⟨0x1000, ?_, rfl⟩, rfl, rfl⟩, ?_⟩
  · rw [show (if (7 : Int) < 0 then -((pyDigits (7 : Int).natAbs).length : Int) else (pyDigits (7 : Int).natAbs).length) = 1 by rw [pyDigits, pyDigits]; decide]
    exact objAt_of (r := 1) (by decide +kernel) (by decide +kernel)
  · rw [show pyDigits (7 : Int).natAbs = [7] by rw [pyDigits, pyDigits]; decide]
    decide +kernel

theorem sample_seven2' : LongAt sampleCfg2 (sampleMem2 0x2000) 0x2000 7 := by
  refine ⟨⟨⟨0, 24, 4, 0, 0⟩, ⟨0x1000, ?_, rfl⟩, rfl, rfl⟩, ?_⟩
  · rw [show (if (7 : Int) < 0 then -((pyDigits (7 : Int).natAbs).length : Int) else (pyDigits (7 : Int).natAbs).length) = 1 by rw [pyDigits, pyDigits]; decide]
    exact objAt_of (r := 1) (by decide +kernel) (by decide +kernel)
  · rw [show pyDigits (7 : Int).natAbs = [7] by rw [pyDigits, pyDigits]; decide]
    decide +kernel

theorem C62_two_example : Prints sampleCfg2 (sampleMem2 0) 0x2180 "{\n        7 : 7\n    }".toList := by
  have h : Dict2At sampleCfg2 (sampleMem2 0) 0x2180 ([none, some (0x2000, 0x2000), none, none, none, none, none] ++ [none]) :=
    ⟨⟨0, 48, 0, 0, 0⟩, 0, 1, 0x2200, ⟨0x1600, objAt_of (r := 1) (by decide +kernel) (by decide +kernel), rfl⟩, by decide, by decide +kernel, by decide, by decide +kernel, by decide, by decide +kernel, by decide,
      memOf_present (by decide), fun i hi => by
        match i, hi with
        | 0, _ => exact (by decide +kernel : NumAt (sampleMem2 0) (0x2200 + 24 * 0 + 16) 8 0)
        | 1, _ => exact ⟨by decide, by decide, by decide +kernel, by decide +kernel⟩
        | 2, _ => exact (by decide +kernel : NumAt (sampleMem2 0) (0x2200 + 24 * 2 + 16) 8 0)
        | 3, _ => exact (by decide +kernel : NumAt (sampleMem2 0) (0x2200 + 24 * 3 + 16) 8 0)
        | 4, _ => exact (by decide +kernel : NumAt (sampleMem2 0) (0x2200 + 24 * 4 + 16) 8 0)
        | 5, _ => exact (by decide +kernel : NumAt (sampleMem2 0) (0x2200 + 24 * 5 + 16) 8 0)
        | 6, _ => exact (by decide +kernel : NumAt (sampleMem2 0) (0x2200 + 24 * 6 + 16) 8 0)
        | 7, _ => exact (by decide +kernel : NumAt (sampleMem2 0) (0x2200 + 24 * 7 + 16) 8 0)
        | i + 8, h => exact absurd h (by simp)⟩
  exact C62_two_partial rfl (by decide) h (.pairsCons _ _ _ _ _ _ _ _ _ _ _ (.int _ _ _ 7 (by omega) sample_seven2 (by decide) (by decide))
    (.int _ _ _ 7 (by omega) sample_seven2 (by decide) (by decide)) (.pairsNil _ _))

/-- Something is in the last place as well, and the same is shown. -/
theorem C62_not_two_example : Prints sampleCfg2 (sampleMem2 0x2000) 0x2180 "{\n        7 : 7\n    }".toList := by
  have h : Dict2At sampleCfg2 (sampleMem2 0x2000) 0x2180 ([none, some (0x2000, 0x2000), none, none, none, none, none] ++ [some (0x2000, 0x2000)]) :=
    ⟨⟨0, 48, 0, 0, 0⟩, 0, 1, 0x2200, ⟨0x1600, objAt_of (r := 1) (by decide +kernel) (by decide +kernel), rfl⟩, by decide, by decide +kernel, by decide, by decide +kernel, by decide, by decide +kernel, by decide,
      memOf_present (by decide), fun i hi => by
        match i, hi with
        | 0, _ => exact (by decide +kernel : NumAt (sampleMem2 0x2000) (0x2200 + 24 * 0 + 16) 8 0)
        | 1, _ => exact ⟨by decide, by decide, by decide +kernel, by decide +kernel⟩
        | 2, _ => exact (by decide +kernel : NumAt (sampleMem2 0x2000) (0x2200 + 24 * 2 + 16) 8 0)
        | 3, _ => exact (by decide +kernel : NumAt (sampleMem2 0x2000) (0x2200 + 24 * 3 + 16) 8 0)
        | 4, _ => exact (by decide +kernel : NumAt (sampleMem2 0x2000) (0x2200 + 24 * 4 + 16) 8 0)
        | 5, _ => exact (by decide +kernel : NumAt (sampleMem2 0x2000) (0x2200 + 24 * 5 + 16) 8 0)
        | 6, _ => exact (by decide +kernel : NumAt (sampleMem2 0x2000) (0x2200 + 24 * 6 + 16) 8 0)
        | 7, _ => exact ⟨by decide, by decide, by decide +kernel, by decide +kernel⟩
        | i + 8, h => exact absurd h (by simp)⟩
  exact C62_not_two rfl (by decide) h (.pairsCons _ _ _ _ _ _ _ _ _ _ _ (.int _ _ _ 7 (by omega) sample_seven2' (by decide) (by decide))
    (.int _ _ _ 7 (by omega) sample_seven2' (by decide) (by decide)) (.pairsNil _ _))

/-! ### C63: objects -/

/-- C63: printing any object ends, whatever is in memory, and no exception leaves it. -/
theorem C63_ends {cfg : Config} {mem : Mem} (hmem : ∀ a, W64 ≤ a → mem a = none) (a : Nat) (st : St) : ∃ r, (∀ n, W64 + 2 ≤ n → print cfg mem n a st = some r) ∧ r ≠ .exc := by
  obtain ⟨r, h1, h2⟩ := print_ends (cfg := cfg) hmem a st
  refine ⟨r, h1, fun he => ?_⟩
  have := h1 _ (Nat.le_refl _)
  rw [he] at this
  exact print_catches cfg mem _ a st this

/-- C63: each container is expanded at most once. -/
theorem C63_once {cfg : Config} {mem : Mem} (hmem : ∀ a, W64 ≤ a → mem a = none) {n a : Nat} {st : St} (h : print cfg mem n a newPrinter = some (.ok st)) : st.expanded.Nodup := by
  obtain ⟨r, h1, h2⟩ := print_ends (cfg := cfg) hmem a newPrinter
  have e := h1 (max n (W64 + 2)) (Nat.le_max_right _ _)
  rw [print_mono (Nat.le_max_left _ _) h] at e
  have := Option.some.inj e
  exact ((h2 st this.symm).2 ⟨List.nodup_nil, (fun _ h => nomatch h)⟩).nodup

/-- C63: objects are written as they are to be, containers where they are first met.
(Partial: of lists and tuples only the first hundred members, see `C63_not_complete`; numbers, strings and dictionaries see C45, C67 and C62.) -/
theorem C63_renders_partial {cfg : Config} {mem : Mem} {a : Nat} {t : Text} {S' : List Nat} (h : Renders cfg mem 0 [] (.obj a) t S') : Prints cfg mem a t := prints_of (renders h)

/-- An object whose attributes are a dictionary. -/
theorem C63_example : Prints sampleCfg sampleMem 0x2340
    "Cls\n{\n                \"ab\" : ( \n                        -1099511627781,\n                    )\n\n                7 : None\n            }\n".toList := by
  have h := C63_renders_partial (.instance 0 [] _ _ _ _ _ (by omega) sample_instance (by simp)
    (.dict _ _ _ _ _ _ (by omega) rfl sample_dict (by decide) (by decide) (sample_pairs 4 (by omega) [0x2180, 0x2340] (by decide))))
  exact prints_eq h (by decide +kernel)

/-- A list that has itself as a member. -/
theorem C63_cycle_example : Prints sampleCfg sampleMem 0x2100 ("[ \n        7,\n        (already seen),\n        {\n                \"ab\" : ( \n                        -1099511627781,\n                    )\n\n" ++
    "                7 : None\n            },\n    ]").toList := by
  have hc : ContainerAt sampleCfg sampleMem 0x2100 := by
    obtain ⟨ty, p, ⟨tp, ho, hp⟩, _⟩ := sample_list
    exact ⟨tp, ty, _, ho, Or.inl ⟨.list, hp, by decide, by decide, by decide, by decide, by decide⟩⟩
  have h := C63_renders_partial (.list 0 [] _ _ _ _ (by omega) sample_list (by simp) (.itemsCons _ _ _ _ _ _ _ _ (.int _ _ _ 7 (by omega) sample_seven (by decide) (by decide))
    (.itemsCons _ _ _ _ _ _ _ _ (.again _ _ _ (by omega) hc (by decide)) (.itemsCons _ _ _ _ _ _ _ _
      (.dict _ _ _ _ _ _ (by omega) rfl sample_dict (by decide) (by decide) (sample_pairs 4 (by omega) [0x2180, 0x2100] (by decide))) (.itemsNil _ _)))))
  exact prints_eq h (by decide +kernel)

/-- C63 fails for lists of more than a hundred members: only the first hundred are written, and nothing says that there are more. -/
theorem C63_not_complete {cfg : Config} {mem : Mem} {a : Nat} {l : List Nat} {t : Text} {S : List Nat} (hlen : 100 < l.length) (h : ListAt cfg mem a l)
    (ht : Renders cfg mem 2 [a] (.items (l.take 100)) t S) : Prints cfg mem a ("[ \n".toList ++ t ++ pyIndent 1 ++ "]".toList) ∧ (l.take 100).length < l.length :=
  ⟨prints_of (renders (.list 0 [] a l t S (by omega) h (by simp) ht)), by rw [List.length_take]; omega⟩

/-- C63 fails for types that cannot be read: the first object of such a type is reported, but what was not read is used for the second. -/
theorem C63_not_defined {cfg : Config} {mem : Mem} {a b t : Nat} (ha : HeadAt mem a t) (hb : HeadAt mem b t) (hs : cfg.lay.typeSize ≠ 0) (hp : ¬ Present mem t cfg.lay.typeSize) :
    ∃ st, (∀ n, print cfg mem (n + 1) a newPrinter = some (.ok st)) ∧ st.out = "(print failed:".toList ++ cfg.what ++ ")".toList ∧ ∀ n, print cfg mem (n + 1) b st = some .ub := by
  obtain ⟨st, h1, h2, h3⟩ := type_twice ha hb hs hp (n := 0)
  exact ⟨st, fun n => print_mono (by omega) h1, h2, fun n => print_mono (by omega) h3⟩

/-- Two objects whose type is at an address where there is no memory. -/
theorem C63_not_defined_example : let mem := memOf [(0x2000, 8, 1), (0x2008, 8, 0x8000), (0x2100, 8, 1), (0x2108, 8, 0x8000)]
    HeadAt mem 0x2000 0x8000 ∧ HeadAt mem 0x2100 0x8000 ∧ ¬ Present mem 0x8000 sampleCfg.lay.typeSize :=
  ⟨⟨by decide, memOf_present (by decide), ⟨1, by decide, by decide +kernel⟩, by decide +kernel⟩, ⟨by decide, memOf_present (by decide), ⟨1, by decide, by decide +kernel⟩, by decide +kernel⟩,
    fun h => by
      obtain ⟨b, hb⟩ := h 0 (by decide)
      have e : memOf [(0x2000, 8, 1), (0x2008, 8, 0x8000), (0x2100, 8, 1), (0x2108, 8, 0x8000)] (0x8000 + 0) = none := by decide +kernel
      rw [e] at hb
      cases hb⟩

/-- C63 fails after an exception: the level is not what it was, so that all that is written afterwards is indented wrongly, and cut too early. -/
theorem C63_not_level {cfg : Config} {mem : Mem} {a t : Nat} {ty : TypeObj} {size : Int} {name : List Byte} (hobj : ObjAt cfg mem a t ty size) (hpr : cfg.printers t = none) (hf : ty.flags.testBit 9 = true)
    (hn : CStrAt mem ty.name name) (hne : name ≠ [0x4e#8, 0x6f#8, 0x6e#8, 0x65#8, 0x54#8, 0x79#8, 0x70#8, 0x65#8]) (hpos : 0 < ty.dictoffset) (hfit : a + ty.dictoffset < 2 ^ 64)
    (hbad : ¬ Present mem (a + ty.dictoffset.toNat) 8) :
    ∃ st, (∀ n, print cfg mem (n + 1) a newPrinter = some (.ok st)) ∧ st.out = textOf name ++ "\n".toList ++ ("(print failed:".toList ++ cfg.what ++ ")".toList) ∧ st.depth = newPrinter.depth + 1 := by
  obtain ⟨st, h1, h2, h3⟩ := heap_depth hobj hpr hf hn hne hpos hfit hbad (n := 0)
  exact ⟨st, fun n => print_mono (by omega) h1, h2, h3⟩

/-- C62 fails when the table cannot be read: an index that was not read is used. -/
theorem C62_not_read {cfg : Config} {mem : Mem} {a used p values size : Nat} {ty : TypeObj} {obSize : Int} (htwo : cfg.two = false) (hmax : 1 ≤ cfg.maxdepth) (hk : OfKind cfg mem a .dict ty obSize)
    (hsz : 48 ≤ objBytes ty obSize) (hu : NumAt mem (a + 16) 8 used) (hu0 : used ≠ 0) (hp : NumAt mem (a + 32) 8 p) (hv : NumAt mem (a + 40) 8 values) (hpres : Present mem p 40)
    (hs : IntAt mem (p + 8) 8 size) (hs0 : size ≠ 0) (hfit : p + 40 < 2 ^ 64) (hbad : mem (p + 40) = none) : PrintUndefined cfg mem a :=
  index_ub htwo hmax hk hsz hu hu0 hp hv hpres hs hs0 hfit hbad

/-! ### C64: threads -/

/-- C64: the threads of an interpreter are listed in their order, each once, each with its frames; a list that comes back to a thread listed before is left there.
(Partial: if there are more than 128, only these.) -/
theorem C64_threads_partial {cfg : Config} {mem : Mem} (ha : cfg.doargs = false) (hl : cfg.dolocals = false) {x : InterpInfo} {next : Nat} (h : InterpAt cfg mem x next) (hn : (interpFrames x).Nodup) :
    ∃ N, ∀ n, N ≤ n → ∃ st, printInterp cfg mem n x.addr false newPrinter = some (.ok (st, next)) ∧ st.out = interpText x := by
  obtain ⟨N, st, h1, h2⟩ := interp_write ha hl h hn (S := []) (by simp) newPrinter rfl rfl typesOk_nil
  exact ⟨N, fun n hn => ⟨st, printInterp_mono hn h1, by rw [h2.out]; rfl⟩⟩

/-- C64: listing the threads of an interpreter ends, whatever is in memory. -/
theorem C64_ends {cfg : Config} {mem : Mem} (hmem : ∀ a, W64 ≤ a → mem a = none) (a : Nat) (modules : Bool) (st : St) : ∃ r, ∀ n, W64 + 130 ≤ n → printInterp cfg mem n a modules st = some r :=
  printInterp_ends hmem a modules st

theorem C64_example : ∃ N, ∀ n, N ≤ n → ∃ st, printInterp sampleCfg sampleMem n 0x2c00 false newPrinter = some (.ok (st, 0)) ∧ st.out = interpText sampleInterp :=
  C64_threads_partial rfl rfl sample_interp (by decide)

/-- A list of threads that is a circle: it is left after the first. -/
def sampleCircle : Mem := memOf [(0x2a08, 8, 0x2a00), (0x2c08, 8, 0x2a00)]

theorem C64_circle_example : ∃ N, ∀ n, N ≤ n → ∃ st, printInterp sampleCfg sampleCircle n 0x2c00 false newPrinter = some (.ok (st, 0)) ∧ st.out = "---- interpreter @2c00 -----\nanonymous thread\n".toList := by
  have h : InterpAt sampleCfg sampleCircle ⟨0x2c00, [⟨0x2a00, "anonymous thread".toList, []⟩], true⟩ 0 :=
    ⟨by decide, 0x2a00, 0, by decide +kernel, ⟨0x2a00, ⟨rfl, 0x2a00, ⟨by decide, by decide, memOf_present (by decide), ⟨0, by decide +kernel, Or.inl ⟨rfl, rfl⟩⟩, ⟨0, by decide +kernel, rfl⟩, by decide +kernel⟩, rfl⟩,
      Or.inr (Or.inl ⟨rfl, by decide, by decide⟩)⟩, by decide⟩
  obtain ⟨N, hN⟩ := C64_threads_partial rfl rfl h (by decide)
  refine ⟨N, fun n hn => ?_⟩
  obtain ⟨st, h1, h2⟩ := hN n hn
  refine ⟨st, h1, ?_⟩
  rw [h2]
  exact eq_of_beq (by decide +kernel)

/-- C64 fails for interpreters: a list of these that is a circle is listed for ever. -/
theorem C64_not_interpreters {cfg : Config} {mem : Mem} {p m : Nat} (hp : p ≠ 0) (h : PtrsAt mem p [p, 0, m]) (head : Nat) (hh : NumAt mem head 8 p) (st : St) (n : Nat) :
    printInterpreters cfg mem n head false st = none := by
  unfold printInterpreters
  rw [readPtr_at hh]
  exact interpLoop_circle hp h n st

theorem C64_not_interpreters_example : PtrsAt (memOf [(0x2c00, 8, 0x2c00), (0x2d00, 8, 0x2c00)]) 0x2c00 [0x2c00, 0, 0] ∧ NumAt (memOf [(0x2c00, 8, 0x2c00), (0x2d00, 8, 0x2c00)]) 0x2d00 8 0x2c00 := by
  decide +kernel

/-! ### C65: versions -/

/-- C65: the version in a file name is found, if its numbers are less than ten. (Partial: see `C65_not_ten`.) -/
theorem C65_version_partial {name : List Char} {major minor : Nat} (h : VersionName name major minor) (h1 : major < 10) (h2 : minor < 10) : version name = .ok (major, minor) := by
  obtain ⟨dir, u, v, rfl, hdir, hu, hv, -, hfirst⟩ := h.parts
  have e : ∀ n, n < 10 → Nat.toDigits 10 n = [Nat.digitChar n] ∧ (Nat.digitChar n).isDigit = true ∧ (Nat.digitChar n).toNat - 48 = n := by decide +kernel
  obtain ⟨a1, a2, a3⟩ := e major h1
  obtain ⟨b1, b2, b3⟩ := e minor h2
  rw [a1, b1] at hfirst ⊢
  have hname : u ++ "python".toList ++ [major.digitChar] ++ ".".toList ++ [minor.digitChar] ++ v = u ++ ("python".toList ++ (major.digitChar :: '.' :: minor.digitChar :: v)) := by simp
  rw [hname] at hfirst ⊢
  have := version_at (x := '.') hdir hu hv (by decide) a2 b2 (fun u' v' he => hfirst u' v' (by rw [he]; simp))
  rw [this, a3, b3]

/-- C65 fails for all later versions: of the minor number only the first digit is used. -/
theorem C65_not_ten {name : List Char} {major minor : Nat} (h : VersionName name major minor) (h1 : major < 10) (h2 : 10 ≤ minor) (h3 : minor < 100) : version name = .ok (major, minor / 10) := by
  obtain ⟨dir, u, v, rfl, hdir, hu, hv, -, hfirst⟩ := h.parts
  have e : ∀ n, n < 10 → Nat.toDigits 10 n = [Nat.digitChar n] ∧ (Nat.digitChar n).isDigit = true ∧ (Nat.digitChar n).toNat - 48 = n := by decide +kernel
  have e2 : ∀ n, n < 100 → 10 ≤ n → Nat.toDigits 10 n = [Nat.digitChar (n / 10), Nat.digitChar (n % 10)] ∧ (Nat.digitChar (n % 10)) ≠ '/' := by decide +kernel
  obtain ⟨a1, a2, a3⟩ := e major h1
  obtain ⟨b1, b4⟩ := e2 minor h3 h2
  obtain ⟨-, b2, b3⟩ := e (minor / 10) (by omega)
  rw [a1, b1] at hfirst ⊢
  have hname : u ++ "python".toList ++ [major.digitChar] ++ ".".toList ++ [(minor / 10).digitChar, (minor % 10).digitChar] ++ v =
      u ++ ("python".toList ++ (major.digitChar :: '.' :: (minor / 10).digitChar :: ((minor % 10).digitChar :: v))) := by simp
  rw [hname] at hfirst ⊢
  have := version_at (x := '.') hdir hu (w := (minor % 10).digitChar :: v) (by simp only [List.mem_cons, not_or]; exact ⟨Ne.symm b4, hv⟩) (by decide) a2 b2 (fun u' v' he => hfirst u' v' (by rw [he]; simp))
  rw [this, a3, b3]

theorem C65_example : version "/usr/lib/libpython3.8.so.1.0".toList = .ok (3, 8) ∧ version "/usr/bin/python3.10".toList = .ok (3, 1) := by decide

theorem C65_example_name : VersionName "/usr/bin/python3.10".toList 3 10 :=
  ⟨"/usr/bin/".toList, [], [], by decide, Or.inr ⟨"/usr/bin".toList, by decide⟩, by decide, by decide, by simp, fun _ _ _ => Nat.zero_le _⟩

/-! ### C66: the backtrace -/

/-- C66: for all interpreters of a process, all their threads and all frames of these, in order, function, file and line are written (without arguments and locals).
(Partial: with them, see the note; and to 128 threads.) -/
theorem C66_backtrace_partial {cfg : Config} {mem : Mem} (ha : cfg.doargs = false) (hl : cfg.dolocals = false) {l : List InterpInfo} {head first : Nat} (hh : NumAt mem head 8 first)
    (h : InterpsAt cfg mem first l) (hn : (l.flatMap interpFrames).Nodup) : PrintsAll cfg mem head false (l.flatMap interpText) := by
  obtain ⟨S', hw⟩ := interps_write ha hl l first [] h hn (by simp)
  obtain ⟨N, st, h1, h2⟩ := hw newPrinter rfl rfl typesOk_nil
  refine ⟨N, fun n hn => ⟨st, ?_, by rw [h2.out]; rfl⟩⟩
  unfold printInterpreters
  rw [readPtr_at hh]
  exact interpLoop_mono hn _ _ _ _ _ hn h1

theorem C66_example : PrintsAll sampleCfg sampleMem 0x2d00 false
    "---- interpreter @2c00 -----\npthread: 0x2f00, lwp 4242\n    ab in f.py:17\n    ab in f.py:20\n\n".toList := by
  have h := C66_backtrace_partial (cfg := sampleCfg) (mem := sampleMem) rfl rfl (l := [sampleInterp]) (head := 0x2d00) (first := 0x2c00) (by decide +kernel) ⟨rfl, 0, sample_interp, rfl⟩ (by decide)
  have e : [sampleInterp].flatMap interpText = "---- interpreter @2c00 -----\npthread: 0x2f00, lwp 4242\n    ab in f.py:17\n    ab in f.py:20\n\n".toList := eq_of_beq (by decide +kernel)
  rw [← e]
  exact h

/-- C66, with everything that can be asked for: all interpreters, all their threads up to the 128th, all frames of these with arguments and variables, and all modules, each object in full where it
is first met. (Partial: to 128 threads, a hundred members of lists, and so on, see C62, C63 and C68.) -/
theorem C66_listing_partial {cfg : Config} {mem : Mem} {head first : Nat} {modules : Bool} {t : Text} (hh : NumAt mem head 8 first) (h : InterpsList cfg mem modules first [] t) :
    PrintsAll cfg mem head modules t := by
  obtain ⟨S', hw⟩ := interpsList_writes h
  obtain ⟨N, st, h1, h2⟩ := hw newPrinter rfl rfl typesOk_nil
  refine ⟨N, fun n hn => ⟨st, ?_, by rw [h2.out]; rfl⟩⟩
  unfold printInterpreters
  rw [readPtr_at hh]
  exact interpLoop_mono hn _ _ _ _ _ hn h1

theorem C66_listing_example : PrintsAll sampleCfg sampleMem 0x2d00 true
    ("---- interpreter @2c00 -----\npthread: 0x2f00, lwp 4242\n    ab in f.py:17\n    ab in f.py:20\n\n---- modules:\n" ++
     "{\n        \"ab\" : ( \n                -1099511627781,\n            )\n\n        7 : None\n    }").toList := by
  have line : ∀ d S (f : Frame), Renders sampleCfg sampleMem d S (.pieces (framePieces sampleCfg.doargs f))
      (pyIndent d ++ (textOf f.func ++ (" in ".toList ++ (textOf f.file ++ (":".toList ++ ((toString f.line).toList ++ ("\n".toList ++ []))))))) S := fun d S f =>
    .piecesLine _ _ _ _ _ (.piecesText _ _ _ _ _ _ (.piecesText _ _ _ _ _ _ (.piecesText _ _ _ _ _ _ (.piecesText _ _ _ _ _ _ (.piecesText _ _ _ _ _ _ (.piecesText _ _ _ _ _ _ (.piecesNil _ _)))))))
  have h := C66_listing_partial (cfg := sampleCfg) (mem := sampleMem) (modules := true) (head := 0x2d00) (first := 0x2c00) (by decide +kernel)
    (.cons 0x2c00 0 0x2a00 0x2180 [] _ _ _ _ _ (by decide) (by decide +kernel)
      (.more _ _ _ _ 0x2400 0 _ _ _ _
        ⟨by decide, by decide, memOf_present (by decide), ⟨0x2f00, by decide +kernel, Or.inr (Or.inr ⟨16, 4242, by decide, rfl, by decide, by decide +kernel, rfl⟩)⟩, by decide +kernel, by decide +kernel⟩
        (.frame 0 [] 0x2400 ⟨[0x61#8, 0x62#8], [0x66#8, 0x2e#8, 0x70#8, 0x79#8], 17, ⟨[], [], none, none⟩, ⟨[], [], []⟩, 0, 0x2600⟩ _ _ _ _ _ _ _ _ (by omega)
          ⟨sample_frame, by decide +kernel, (fun h => nomatch h), (fun h => nomatch h)⟩ (by simp) (line _ _ _) (.sectionsNil _ _) (.piecesNil _ _)
          (.frame 0 _ 0x2600 ⟨[0x61#8, 0x62#8], [0x66#8, 0x2e#8, 0x70#8, 0x79#8], 20, ⟨[], [], none, none⟩, ⟨[], [], []⟩, 0, 0⟩ _ _ _ _ _ _ _ _ (by omega)
            ⟨sample_caller, by decide +kernel, (fun h => nomatch h), (fun h => nomatch h)⟩ (by decide) (line _ _ _) (.sectionsNil _ _) (.piecesNil _ _) (.null _ _ (by omega))))
        (by decide) (by decide) (.none _ _))
      (fun _ => ⟨_, rfl, .dict _ _ _ _ _ _ (by omega) rfl sample_dict (by decide) (by decide) (sample_pairs 2 (by omega) _ (by decide))⟩) (fun h => nomatch h) (.none _))
  obtain ⟨N, h⟩ := h
  refine ⟨N, fun n hn => ?_⟩
  obtain ⟨st, h1, h2⟩ := h n hn
  exact ⟨st, h1, h2.trans (eq_of_beq (by decide +kernel))⟩

/-! ### C68, C69: arguments and variables -/

/-- C68 and C69: of a frame, the function with all arguments of the call, the file and line, and then all variables with their values are written (the first and the others if they are asked for);
then its callers. (Partial: how arguments are written is not as it should be, see `C68_not_balanced`; less than 128 members of `*args`, and that many that are given only by name, are shown.) -/
theorem C68_frame_partial {cfg : Config} {mem : Mem} {a : Nat} {f : Frame} {t1 t2 t3 t4 : Text} {S1 S2 S3 S4 : List Nat} (h : FullFrameAt cfg mem a f)
    (h1 : Renders cfg mem 1 [a] (.pieces (framePieces cfg.doargs f)) t1 S1) (h2 : Renders cfg mem 2 S1 (.sections (if cfg.dolocals then varSections f.vars else [])) t2 S2)
    (h3 : Renders cfg mem 2 S2 (.pieces (if cfg.dolocals ∧ f.locals ≠ 0 then [.line, .text "locals:\n".toList, .obj f.locals] else [])) t3 S3)
    (h4 : Renders cfg mem 0 S3 (.obj f.back) t4 S4) : Prints cfg mem a (t1 ++ t2 ++ t3 ++ t4) :=
  prints_of (renders (.frame 0 [] a f t1 S1 t2 S2 t3 S3 t4 S4 (by omega) h (by simp) h1 h2 h3 h4))

theorem C68_example : Prints argsCfg argsMem 0x2600
    ("    ab(7, =(\"ab\", -1099511627781, ab=7) in f.py:20\n" ++
     "        fastlocals:\n            \"ab\"=7\n            \"ab\"=7\n            \"ab\"=( \n                    -1099511627781,\n                )\n\n" ++
     "        locals:\nNone").toList := by
  have seven : ∀ d S, d ≤ 10000 → Renders argsCfg argsMem d S (.obj 0x2000) "7".toList S := fun d S hd => .int d S _ 7 hd args_seven (by decide) (by decide)
  have big : ∀ d S, d ≤ 10000 → Renders argsCfg argsMem d S (.obj 0x2040) "-1099511627781".toList S := fun d S hd => .int d S _ _ hd args_big (by decide) (by decide)
  have name : ∀ d S, d ≤ 10000 → Renders argsCfg argsMem d S (.obj 0x2080) (['"'] ++ textOf [0x61#8, 0x62#8] ++ ['"']) S := fun d S hd => .str d S _ _ hd args_str.1 args_str.2
  have h := C68_frame_partial args_frame
    (.piecesLine _ _ _ _ _ (.piecesText _ _ _ _ _ _ (.piecesText _ _ _ _ _ _ (.piecesObj _ _ _ _ _ _ _ _ (seven _ _ (by omega)) (.piecesText _ _ _ _ _ _ (.piecesText _ _ _ _ _ _
      (.piecesObj _ _ _ _ _ _ _ _ (name _ _ (by omega)) (.piecesText _ _ _ _ _ _ (.piecesObj _ _ _ _ _ _ _ _ (big _ _ (by omega)) (.piecesText _ _ _ _ _ _ (.piecesText _ _ _ _ _ _
        (.piecesText _ _ _ _ _ _ (.piecesObj _ _ _ _ _ _ _ _ (seven _ _ (by omega)) (.piecesText _ _ _ _ _ _ (.piecesText _ _ _ _ _ _ (.piecesText _ _ _ _ _ _ (.piecesText _ _ _ _ _ _
          (.piecesText _ _ _ _ _ _ (.piecesText _ _ _ _ _ _ (.piecesNil _ _))))))))))))))))))))
    (.sectionsCons _ _ _ _ _ _ _ _ _ (by decide) (.varsCons _ _ _ _ _ _ _ _ _ _ _ (name _ _ (by omega)) (seven _ _ (by omega)) (.varsCons _ _ _ _ _ _ _ _ _ _ _ (name _ _ (by omega)) (seven _ _ (by omega))
      (.varsCons _ _ _ _ _ _ _ _ _ _ _ (name _ _ (by omega)) (.tuple _ _ _ _ _ _ (by omega) args_tuple (by decide) (by decide) (.itemsCons _ _ _ _ _ _ _ _ (big _ _ (by omega)) (.itemsNil _ _)))
        (.varsNil _ _)))) (.sectionsNone _ _ _ _ _ _ (.sectionsNone _ _ _ _ _ _ (.sectionsNil _ _))))
    (.piecesLine _ _ _ _ _ (.piecesText _ _ _ _ _ _ (.piecesObj _ _ _ _ _ _ _ _ (.pyNone _ _ _ (by omega) args_none) (.piecesNil _ _))))
    (.null _ _ (by omega))
  exact prints_eq h (by decide +kernel)

/-- C69: below the line of a frame all its variables are written, in their order and each with its value: those of the function, those shared with functions in it and those of functions it
is in. (Partial: of values as much is written as C62, C63 and C67 say.) -/
theorem C69_locals_partial {cfg : Config} {mem : Mem} {a : Nat} {f : Frame} {t : Text} {S : List Nat} (ha : cfg.doargs = false) (hl : cfg.dolocals = true) (h : FullFrameAt cfg mem a f)
    (ht : Renders cfg mem 2 [a] (.sections [("fastlocals".toList, f.vars.fast), ("cells".toList, f.vars.cells), ("freevars".toList, f.vars.free)]) t S) (hd : f.locals = 0) (hb : f.back = 0) :
    Prints cfg mem a (pyIndent 1 ++ textOf f.func ++ " in ".toList ++ textOf f.file ++ ":".toList ++ (toString f.line).toList ++ "\n".toList ++ t) := by
  have h := C68_frame_partial (S1 := [a]) h
    (by rw [ha]; exact .piecesLine _ _ _ _ _ (.piecesText _ _ _ _ _ _ (.piecesText _ _ _ _ _ _ (.piecesText _ _ _ _ _ _ (.piecesText _ _ _ _ _ _ (.piecesText _ _ _ _ _ _ (.piecesText _ _ _ _ _ _ (.piecesNil _ _))))))))
    (by rw [hl]; exact ht) (by rw [hl, hd]; exact .piecesNil _ _) (by rw [hb]; exact .null _ _ (by omega))
  simpa [List.append_assoc] using h

/-- C68 fails: a call without arguments is shown as `f(=()`. -/
theorem C68_not_balanced {cfg : Config} {mem : Mem} {a : Nat} {f : Frame} (ha : cfg.doargs = true) (hl : cfg.dolocals = false) (h : FullFrameAt cfg mem a f) (hargs : f.args = ⟨[], [], none, none⟩)
    (hb : f.back = 0) : Prints cfg mem a (pyIndent 1 ++ textOf f.func ++ "(=() in ".toList ++ textOf f.file ++ ":".toList ++ (toString f.line).toList ++ "\n".toList) := by
  have e : framePieces cfg.doargs f = [.line, .text (textOf f.func), .text "(".toList, .text "=(".toList, .text ")".toList, .text " in ".toList, .text (textOf f.file), .text ":".toList,
      .text (toString f.line).toList, .text "\n".toList] := by
    unfold framePieces argPieces
    rw [ha, hargs]
    rfl
  have h := C68_frame_partial h (by rw [e]; exact .piecesLine _ _ _ _ _ (.piecesText _ _ _ _ _ _ (.piecesText _ _ _ _ _ _ (.piecesText _ _ _ _ _ _ (.piecesText _ _ _ _ _ _ (.piecesText _ _ _ _ _ _
    (.piecesText _ _ _ _ _ _ (.piecesText _ _ _ _ _ _ (.piecesText _ _ _ _ _ _ (.piecesText _ _ _ _ _ _ (.piecesNil _ _))))))))))) (by rw [hl]; exact .sectionsNil _ _)
    (by rw [hl]; exact .piecesNil _ _) (by rw [hb]; exact .null _ _ (by omega))
  simpa [List.append_assoc] using h

/-! ### C67: strings -/

/-- C67: a string of ASCII characters other than NUL is printed as it is, in double quotes. (Partial: see below for others.) -/
theorem C67_string_partial {cfg : Config} {mem : Mem} {a : Nat} {s : List Byte} {ty : TypeObj} {size : Int} (hk : OfKind cfg mem a .string ty size) (h : StrAt cfg mem a s) :
    Prints cfg mem a (['"'] ++ textOf s ++ ['"']) := prints_of (renders (.str 0 [] a s (by omega) ⟨ty, size, hk⟩ h))

theorem string_prints {cfg : Config} {mem : Mem} {a : Nat} {t : Text} {ty : TypeObj} {size : Int} (hk : OfKind cfg mem a .string ty size) (h : pyString cfg mem a = .ok t) :
    Prints cfg mem a (['"'] ++ t ++ ['"']) := by
  obtain ⟨tp, hobj, hpr⟩ := hk
  refine prints_of (writes_leaf (k := .string) hobj (printerOf_some hpr) (by omega) (fun h => nomatch h) (fun buf hb => ?_))
  refine ⟨[.say ['"'], .say t, .say ['"']], ?_, fun pr st0 => by simp only [runActs, put_put]⟩
  show (Script.lift (pyString cfg mem a) >>= _) = _
  rw [h]
  rfl

/-- C67 fails for strings with a NUL: what comes after it is not shown. -/
theorem C67_not_nul {cfg : Config} {mem : Mem} {a st : Nat} {s : List Byte} {ty : TypeObj} {size : Int} (htwo : cfg.two = false) (hk : OfKind cfg mem a .string ty size) (hp : Present mem a 48)
    (hst : NumAt mem (a + 32) 4 st) (h5 : st.testBit 5 = true) (h6 : st.testBit 6 = true) (h7 : st.testBit 7 = true) (hfit : a + 48 + s.length + 1 < 2 ^ 64)
    (hb : ∀ i (h : i < s.length), mem (a + 48 + i) = some s[i]) (hnz : ∀ b ∈ s, b ≠ 0) (hnul : mem (a + 48 + s.length) = some 0) : Prints cfg mem a (['"'] ++ textOf s ++ ['"']) := by
  refine string_prints hk ?_
  obtain ⟨l, hl1, hl2⟩ := readObj_present hp
  unfold pyString
  rw [htwo, if_neg (by decide), hl1, Res.bind_ok, field_at hl2 hst (by omega), Res.bind_ok, h5, h6, h7]
  simp only [Bool.and_self, if_true]
  rw [Nat.mod_eq_of_lt (by unfold W64; omega)]
  unfold readString
  rw [if_neg (by omega), strLoop_cut s _ _ (by unfold W64; omega) hb hnz hnul]
  rfl

/-- C67 fails for strings with characters from U+0100 on: they are kept as two bytes each, and of such a string that begins with another character only this one is shown. -/
theorem C67_not_wide {cfg : Config} {mem : Mem} {a st c : Nat} {ty : TypeObj} {size : Int} (htwo : cfg.two = false) (hk : OfKind cfg mem a .string ty size) (hp : Present mem a 48)
    (hst : NumAt mem (a + 32) 4 st) (h6 : st.testBit 6 = false) (hfit : a + 75 < 2 ^ 64) (hc : NumAt mem (a + 72) 2 c) (hc0 : 0 < c) (hc1 : c < 256) :
    Prints cfg mem a ['"', Char.ofNat c, '"'] := by
  refine string_prints (t := [Char.ofNat c]) hk ?_
  obtain ⟨l, hl1, hl2⟩ := readObj_present hp
  unfold pyString
  rw [htwo, if_neg (by decide), hl1, Res.bind_ok, field_at hl2 hst (by omega), Res.bind_ok, h6]
  simp only [Bool.and_false, Bool.false_and, Bool.false_eq_true, if_false, ite_self]
  rw [Nat.mod_eq_of_lt (by unfold W64; omega)]
  have h0 := hc.2 0 (by omega)
  have h1 := hc.2 1 (by omega)
  unfold readString
  rw [if_neg (by omega), strLoop_cut [BitVec.ofNat 8 c] _ _ (by unfold W64; simp; omega) (fun i hi => by
    have : i = 0 := by simp at hi; omega
    subst this
    simpa using h0) (fun b hb => by
      rw [List.mem_singleton.1 hb]
      intro he
      have := congrArg BitVec.toNat he
      rw [BitVec.toNat_ofNat, Nat.mod_eq_of_lt (by omega)] at this
      simp at this
      omega) (by
        rw [List.length_singleton, h1]
        rw [Nat.pow_one, Nat.div_eq_of_lt hc1]
        rfl)]
  show Res.ok (textOf [BitVec.ofNat 8 c]) = _
  simp only [textOf, List.map_cons, List.map_nil, BitVec.toNat_ofNat]
  rw [Nat.mod_eq_of_lt (by omega)]

theorem C67_example : Prints sampleCfg sampleMem 0x2080 "\"ab\"".toList := by
  obtain ⟨⟨ty, size, hk⟩, h⟩ := sample_str
  exact C67_string_partial hk h

end Pstack.Props
