import Verif.Proof.PythonArgs
/-
What is printed is what the specification says.
-/
namespace Pstack.Python
open Pstack.Spec

/-- Doing what the specification speaks of. -/
def runTodo (cfg : Config) (mem : Mem) (n : Nat) : Todo → St → Option (Res St)
  | .obj a, st => print cfg mem n a st
  | .items l, st => runActs (print cfg mem n) (itemActs l) st
  | .pairs l, st => runActs (print cfg mem n) (pairActs l) st
  | .pieces l, st => runActs (print cfg mem n) (l.map pieceAct) st
  | .vars l, st => runActs (print cfg mem n) (varActs l) st
  | .sections l, st => runActs (print cfg mem n) (sectionActs l) st

theorem runActs_mono_le {cfg : Config} {mem : Mem} {n m : Nat} {l : List Act} {st : St} {r : Res St} (hle : n ≤ m) (h : runActs (print cfg mem n) l st = some r) :
    runActs (print cfg mem m) l st = some r := runActs_mono (fun _ _ _ => print_mono hle) l st r h

/-- `f` writes `t`, at the level `d`, when `S` has been seen. -/
def Writes (cfg : Config) (mem : Mem) (d : Nat) (S : List Nat) (f : Nat → St → Option (Res St)) (t : Text) (S' : List Nat) : Prop :=
  ∀ st : St, st.depth = d → st.visited = S → TypesOk cfg mem st.types → ∃ N st', f N st = some (.ok st') ∧ Wrote cfg mem st t S' st'

theorem writes_box {cfg : Config} {mem : Mem} {d a tp : Nat} {S S' : List Nat} {ty : TypeObj} {size : Int} {k : Kind} {o c t : Text} {inner : List Act}
    (h : ObjAt cfg mem a tp ty size) (hp : printerOf cfg mem a tp ty = .inl k) (hk : k.dupdetect = true) (hd : d ≤ 10000) (ha : a ∉ S)
    (hs : ∀ buf, bytesAt mem a (objBytes ty size) = some buf → script cfg mem ty buf a (d + 1) k = ⟨.say o :: .deeper :: (inner ++ [.shallower, .indent, .say c]), .ok 0⟩)
    (hi : Writes cfg mem (d + 2) (a :: S) (fun n => runActs (print cfg mem n) inner) t S') :
    Writes cfg mem d S (fun n => print cfg mem n a) (o ++ t ++ pyIndent (d + 1) ++ c) S' := by
  intro st hd1 hS htypes
  obtain ⟨st1, buf, h1, h2, h3, h4, h5, h6⟩ := round_call h hp { st with depth := st.depth + 1 } htypes (fun _ => by show a ∉ st.visited; rw [hS]; exact ha)
  rw [hk] at h5
  simp only [if_true] at h5
  have hd2 : st1.depth = (d : Int) + 1 := by rw [h4]; show st.depth + 1 = _; rw [hd1]
  obtain ⟨N, st2, h7, h8⟩ := hi { st1.put o with depth := st1.depth + 1 } (by show st1.depth + 1 = _; rw [hd2]; omega) (by show st1.visited = _; rw [h5, hS]) h6
  have hrun : runActs (print cfg mem (N + 1)) (.say o :: .deeper :: (inner ++ [.shallower, .indent, .say c])) st1 =
      some (.ok (({ st2 with depth := st2.depth - 1 }.put (prefixText (st2.depth - 1))).put c)) := by
    rw [runActs_say, runActs_deeper]
    exact (runActs_append_ok (runActs_mono_le (Nat.le_succ N) h7)).trans rfl
  have hscr := hs buf h2
  have h1' : round cfg mem a { st with depth := st.depth + 1 } = .call st1 ⟨.say o :: .deeper :: (inner ++ [.shallower, .indent, .say c]), .ok 0⟩ := by
    rw [h1, ← hscr]
    show Round.call _ (script cfg mem ty buf a (st.depth + 1) k) = _
    rw [hd1]
  refine ⟨N + 2, _, print_call h.notNull (by omega) h1' rfl hrun, ?_, ?_, ?_, ?_⟩
  · show (st2.out ++ prefixText (st2.depth - 1)) ++ c = _
    have e : st2.depth - 1 = (d + 1 : Nat) := by rw [h8.depth]; show st1.depth + 1 - 1 = _; rw [hd2]; omega
    rw [prefixText_eq e, h8.out]
    show st1.out ++ o ++ t ++ pyIndent (d + 1) ++ c = _
    rw [h3]
    simp [List.append_assoc]
  · show st2.depth - 1 - 1 = _
    rw [h8.depth]
    show st1.depth + 1 - 1 - 1 = _
    rw [hd2, hd1]; omega
  · exact h8.visited
  · exact h8.types

theorem writes_leaf {cfg : Config} {mem : Mem} {d a tp : Nat} {S : List Nat} {ty : TypeObj} {size : Int} {k : Kind} {text : Text}
    (h : ObjAt cfg mem a tp ty size) (hp : printerOf cfg mem a tp ty = .inl k) (hd : d ≤ 10000) (ha : k.dupdetect = true → a ∉ S)
    (hs : ∀ buf, bytesAt mem a (objBytes ty size) = some buf → ∃ l, script cfg mem ty buf a (d + 1) k = ⟨l, .ok 0⟩ ∧ ∀ pr st0, runActs pr l st0 = some (.ok (st0.put text))) :
    Writes cfg mem d S (fun n => print cfg mem n a) text (if k.dupdetect then a :: S else S) := by
  intro st hd1 hS htypes
  obtain ⟨st', h1, h2⟩ := print_leaf (st := st) h hp hd1 hd htypes (by rw [hS]; exact ha) hs
  exact ⟨2, st', h1, by rw [← hS]; exact h2⟩

/-- Something that is written before any printer is looked for. -/
theorem writes_stop {cfg : Config} {mem : Mem} {d a tp : Nat} {S : List Nat} {ty : TypeObj} {size : Int} {text : Text}
    (h : ObjAt cfg mem a tp ty size) (hp : printerOf cfg mem a tp ty = .inr text) (hd : d ≤ 10000) : Writes cfg mem d S (fun n => print cfg mem n a) text S := by
  intro st hd1 hS htypes
  obtain ⟨st1, hs, hr⟩ := round_at h { st with depth := st.depth + 1 } htypes
  rw [hp] at hr
  refine ⟨1, _, print_stop h.notNull (by omega) hr, ?_, ?_, ?_, ?_⟩
  · show st1.out ++ text = _
    rw [hs.out]
  · show st1.depth - 1 = _
    rw [hs.depth]; show st.depth + 1 - 1 = _; omega
  · show st1.visited = _
    rw [hs.visited]; exact hS
  · exact hs.types

theorem writes_again {cfg : Config} {mem : Mem} {d a tp : Nat} {S : List Nat} {ty : TypeObj} {size : Int} {k : Kind} (h : ObjAt cfg mem a tp ty size)
    (hp : printerOf cfg mem a tp ty = .inl k) (hk : k.dupdetect = true) (hd : d ≤ 10000) (ha : a ∈ S) : Writes cfg mem d S (fun n => print cfg mem n a) "(already seen)".toList S := by
  intro st hd1 hS htypes
  obtain ⟨st1, hs, hr⟩ := round_again h hp hk { st with depth := st.depth + 1 } htypes (by show a ∈ st.visited; rw [hS]; exact ha)
  refine ⟨1, _, print_stop h.notNull (by omega) hr, ?_, ?_, ?_, ?_⟩
  · show st1.out ++ _ = _
    rw [hs.out]
  · show st1.depth - 1 = _
    rw [hs.depth]; show st.depth + 1 - 1 = _; omega
  · show st1.visited = _
    rw [hs.visited]; exact hS
  · exact hs.types

theorem dict_box {cfg : Config} {mem : Mem} {d a : Nat} {S S' : List Nat} {l : List (Nat × Nat)} {t : Text} (htwo : cfg.two = false) (h : DictAt cfg mem a l) (hd : d ≤ 10000) (ha : a ∉ S)
    (hmax : ((d + 1 : Nat) : Int) ≤ cfg.maxdepth) (hi : Writes cfg mem (d + 2) (a :: S) (fun n => runActs (print cfg mem n) (pairActs l)) t S') :
    Writes cfg mem d S (fun n => print cfg mem n a) ("{\n".toList ++ t ++ pyIndent (d + 1) ++ "}".toList) S' := by
  obtain ⟨ty, size, used, p, values, slots, key, value, ⟨tp, hobj, hpr⟩, hsz, hu, hu0, hp, hv, hk, hl⟩ := h
  refine writes_box (inner := pairActs l) hobj (printerOf_some hpr) rfl hd ha (fun buf hb => ?_) hi
  have e : script cfg mem ty buf a (d + 1) .dict = dict3Script cfg mem buf (d + 1) := by
    show (if cfg.two then _ else _) = _
    rw [htwo]; rfl
  rw [e]
  by_cases hv0 : values = 0
  · rw [if_pos hv0] at hl
    rw [dict3Script_at hb hsz hu hu0 (by omega) hp hv hk (pick := value) (fun n _ => by rw [if_pos hv0]), hl]
  · rw [if_neg hv0] at hl
    obtain ⟨split, hs1, hs2⟩ := hl
    rw [dict3Script_at hb hsz hu hu0 (by omega) hp hv hk (pick := split) (fun n hn => by rw [if_neg hv0]; exact hs1 n hn), hs2]

theorem noneName_text : textOf [0x4e#8, 0x6f#8, 0x6e#8, 0x65#8, 0x54#8, 0x79#8, 0x70#8, 0x65#8] = "NoneType".toList := by decide

theorem textOf_inj : ∀ {a b : List Byte}, textOf a = textOf b → a = b
  | [], [], _ => rfl
  | [], _ :: _, h => nomatch h
  | _ :: _, [], h => nomatch h
  | x :: a, y :: b, h => by
      have h1 : Char.ofNat x.toNat = Char.ofNat y.toNat := (List.cons.inj h).1
      have h2 : textOf a = textOf b := (List.cons.inj h).2
      have hx := x.isLt
      have hy := y.isLt
      have ev : ∀ n, n < 256 → (Char.ofNat n).toNat = n := by decide +kernel
      have : x.toNat = y.toNat := by
        have := congrArg Char.toNat h1
        rwa [ev _ hx, ev _ hy] at this
      rw [BitVec.eq_of_toNat_eq this, textOf_inj h2]

theorem printerOf_heap {cfg : Config} {mem : Mem} {a t : Nat} {ty : TypeObj} {name : List Byte} (h : cfg.printers t = none) (hf : ty.flags.testBit 9 = true) (hn : CStrAt mem ty.name name)
    (hne : name ≠ [0x4e#8, 0x6f#8, 0x6e#8, 0x65#8, 0x54#8, 0x79#8, 0x70#8, 0x65#8]) : printerOf cfg mem a t ty = .inl .heap := by
  unfold printerOf
  rw [h]
  dsimp only
  rw [readString_at hn, if_neg (by rw [← noneName_text]; exact fun e => hne (textOf_inj e)), if_pos hf]

theorem longValue_at {cfg : Config} {mem : Mem} {a : Nat} {z : Int} (h : LongAt cfg mem a z) (h1 : -(2 ^ 63) < z) (h2 : z < 2 ^ 63) :
    ∃ t ty size, ObjAt cfg mem a t ty size ∧ cfg.printers t = some .long ∧ ∀ buf, bytesAt mem a (objBytes ty size) = some buf → longValue buf = .ok z := by
  obtain ⟨⟨ty, ⟨t, hobj, hpr⟩, hb, hi⟩, hdig⟩ := h
  refine ⟨t, ty, _, hobj, hpr, fun buf hbuf => ?_⟩
  generalize hsz : (if z < 0 then -((pyDigits z.natAbs).length : Int) else (pyDigits z.natAbs).length) = size at *
  have hlen : size.natAbs = (pyDigits z.natAbs).length := by rw [← hsz]; split <;> omega
  have hbytes : objBytes ty size = 24 + 4 * (pyDigits z.natAbs).length := by unfold objBytes; rw [hb, hi, hlen]
  rw [hbytes] at hbuf
  obtain ⟨x, hx1, hx2⟩ := intField_at (by omega) hbuf hobj.obSize (by omega)
  have hl := bytesAt_length hbuf
  have hdl : (pyDigits z.natAbs).length ≤ 3 := pyDigits_length_le _ _ (by
    have : z.natAbs < 2 ^ 63 := by omega
    exact Nat.lt_of_lt_of_le this (by decide))
  have hnums : numbers 4 (pyDigits z.natAbs).length (buf.drop 24) = pyDigits z.natAbs := by
    apply numbers_eq
    intro i hi'
    rw [List.drop_drop]
    have hd' := hdig i hi'
    rw [Nat.add_assoc] at hd'
    exact num_at hbuf hd' (by omega)
  have hloop := longLoop_digits z.natAbs 0 0 (by omega) (by simp; omega)
  simp only [Nat.mul_zero, Int.pow_zero, Int.mul_one, Int.zero_add] at hloop
  unfold longValue
  rw [hx1, Res.bind_ok]
  simp only [hx2]
  rw [if_neg (by omega), if_pos (by omega), hlen, hnums, hloop, Res.bind_ok]
  by_cases hz : z < 0
  · have hs0 : size < 0 := by
      rw [if_pos hz] at hsz
      have : 0 < (pyDigits z.natAbs).length := pyDigits_length_ge _ 0 (by simp; omega)
      omega
    rw [if_pos hs0, if_pos (by unfold fits64; simp only [Bool.and_eq_true, decide_eq_true_eq]; omega)]
    show Res.ok _ = _
    congr 1
    omega
  · have hs0 : ¬ size < 0 := by
      rw [if_neg hz] at hsz
      omega
    rw [if_neg hs0]
    show Res.ok _ = _
    congr 1
    omega

theorem writes_zero {cfg : Config} {mem : Mem} {d : Nat} {S : List Nat} (hd : d ≤ 10000) : Writes cfg mem d S (fun n => print cfg mem n 0) [] S := by
  intro st hd1 hS htypes
  refine ⟨1, st, ?_, by simp, rfl, hS, htypes⟩
  show printWith (loop cfg mem 1) 0 st = _
  unfold printWith
  rw [if_neg (by omega)]
  simp [loop]

theorem writes_deep {cfg : Config} {mem : Mem} {d a : Nat} {S : List Nat} (hd : 10000 < d) : Writes cfg mem d S (fun n => print cfg mem n a) "too deep\n".toList S := by
  intro st hd1 hS htypes
  refine ⟨1, st.put "too deep\n".toList, ?_, rfl, rfl, hS, htypes⟩
  show printWith (loop cfg mem 1) a st = _
  unfold printWith
  rw [if_pos (by omega)]

/-- Acts. -/
abbrev WritesActs (cfg : Config) (mem : Mem) (d : Nat) (S : List Nat) (l : List Act) (t : Text) (S' : List Nat) : Prop :=
  Writes cfg mem d S (fun n => runActs (print cfg mem n) l) t S'

theorem wacts_nil {cfg : Config} {mem : Mem} {d : Nat} {S : List Nat} : WritesActs cfg mem d S [] [] S := fun st _ hS htypes => ⟨0, st, rfl, by simp, rfl, hS, htypes⟩

theorem wacts_say {cfg : Config} {mem : Mem} {d : Nat} {S S' : List Nat} {l : List Act} {x t : Text} (h : WritesActs cfg mem d S l t S') : WritesActs cfg mem d S (.say x :: l) (x ++ t) S' := by
  intro st hd hS htypes
  obtain ⟨N, st1, h1, h2⟩ := h (st.put x) hd hS htypes
  exact ⟨N, st1, h1, by rw [h2.out]; show st.out ++ x ++ t = _; simp, h2.depth, h2.visited, h2.types⟩

theorem wacts_indent {cfg : Config} {mem : Mem} {d : Nat} {S S' : List Nat} {l : List Act} {t : Text} (h : WritesActs cfg mem d S l t S') :
    WritesActs cfg mem d S (.indent :: l) (pyIndent d ++ t) S' := by
  intro st hd hS htypes
  obtain ⟨N, st1, h1, h2⟩ := h (st.put (prefixText st.depth)) hd hS htypes
  exact ⟨N, st1, h1, by rw [h2.out]; show st.out ++ prefixText st.depth ++ t = _; rw [prefixText_eq hd]; simp, h2.depth, h2.visited, h2.types⟩

theorem wacts_append {cfg : Config} {mem : Mem} {d : Nat} {S S' S'' : List Nat} {l l' : List Act} {t t' : Text} (h : WritesActs cfg mem d S l t S') (h' : WritesActs cfg mem d S' l' t' S'') :
    WritesActs cfg mem d S (l ++ l') (t ++ t') S'' := by
  intro st hd hS htypes
  obtain ⟨N1, st1, h1, h2⟩ := h st hd hS htypes
  obtain ⟨N2, st2, h3, h4⟩ := h' st1 (by rw [h2.depth]; exact hd) h2.visited h2.types
  refine ⟨max N1 N2, st2, ?_, by rw [h4.out, h2.out]; simp, by rw [h4.depth, h2.depth], h4.visited, h4.types⟩
  show runActs (print cfg mem (max N1 N2)) (l ++ l') st = _
  rw [runActs_append_ok (runActs_mono_le (Nat.le_max_left _ _) h1)]
  exact runActs_mono_le (Nat.le_max_right _ _) h3

theorem wacts_obj {cfg : Config} {mem : Mem} {d a : Nat} {S S' S'' : List Nat} {l : List Act} {t t' : Text} (h : Writes cfg mem d S (fun n => print cfg mem n a) t S')
    (h' : WritesActs cfg mem d S' l t' S'') : WritesActs cfg mem d S (.obj a :: l) (t ++ t') S'' := by
  refine wacts_append (l := [.obj a]) (fun st hd hS htypes => ?_) h'
  obtain ⟨N1, st1, h1, h2⟩ := h st hd hS htypes
  exact ⟨N1, st1, by show runActs _ _ _ = _; rw [runActs_obj h1]; rfl, h2⟩

/-- A level deeper, and back. -/
theorem wacts_nest {cfg : Config} {mem : Mem} {d : Nat} {S S' : List Nat} {l : List Act} {t : Text} (h : WritesActs cfg mem (d + 1) S l t S') :
    WritesActs cfg mem d S (.deeper :: (l ++ [.shallower])) t S' := by
  intro st hd hS htypes
  obtain ⟨N, st1, h1, h2⟩ := h { st with depth := st.depth + 1 } (by show st.depth + 1 = _; rw [hd]; omega) hS htypes
  refine ⟨N, { st1 with depth := st1.depth - 1 }, ?_, h2.out, ?_, h2.visited, h2.types⟩
  · show runActs (print cfg mem N) _ st = _
    rw [runActs_deeper]
    exact (runActs_append_ok h1).trans rfl
  · show st1.depth - 1 = _
    rw [h2.depth]; show st.depth + 1 - 1 = _; omega

/-- A printer that returns another object. -/
theorem writes_call {cfg : Config} {mem : Mem} {d a tp next : Nat} {S S' S'' : List Nat} {ty : TypeObj} {size : Int} {k : Kind} {t t' : Text} {acts : List Act}
    (h : ObjAt cfg mem a tp ty size) (hp : printerOf cfg mem a tp ty = .inl k) (hk : k.dupdetect = true) (hd : d ≤ 10000) (ha : a ∉ S)
    (hs : ∀ buf, bytesAt mem a (objBytes ty size) = some buf → script cfg mem ty buf a (d + 1) k = ⟨acts, .ok next⟩)
    (hi : WritesActs cfg mem (d + 1) (a :: S) acts t S') (hn : Writes cfg mem d S' (fun n => print cfg mem n next) t' S'') :
    Writes cfg mem d S (fun n => print cfg mem n a) (t ++ t') S'' := by
  intro st hd1 hS htypes
  obtain ⟨st1, buf, h1, h2, h3, h4, h5, h6⟩ := round_call h hp { st with depth := st.depth + 1 } htypes (fun _ => by show a ∉ st.visited; rw [hS]; exact ha)
  rw [hk] at h5
  simp only [if_true] at h5
  have hd2 : st1.depth = (d : Int) + 1 := by rw [h4]; show st.depth + 1 = _; rw [hd1]
  obtain ⟨N1, st2, h7, h8⟩ := hi st1 (by rw [hd2]; omega) (by rw [h5, hS]) h6
  obtain ⟨N2, st3, h9, h10⟩ := hn { st2 with depth := st2.depth - 1 } (by show st2.depth - 1 = _; rw [h8.depth, hd2]; omega) h8.visited h8.types
  have hscr := hs buf h2
  have h1' : round cfg mem a { st with depth := st.depth + 1 } = .call st1 ⟨acts, .ok next⟩ := by
    rw [h1, ← hscr]
    show Round.call _ (script cfg mem ty buf a (st.depth + 1) k) = _
    rw [hd1]
  refine ⟨max N1 N2 + 1, st3, ?_, ?_, ?_, h10.visited, h10.types⟩
  · have h9' : print cfg mem (max N1 N2) next { st2 with depth := st2.depth - 1 } = some (.ok st3) := print_mono (Nat.le_max_right _ _) h9
    unfold print printWith at h9'
    rw [if_neg (by show ¬ st2.depth - 1 > 10000; rw [h8.depth, hd2]; omega)] at h9'
    have e : ({ { st2 with depth := st2.depth - 1 } with depth := st2.depth - 1 + 1 } : St) = st2 := by
      show ({ st2 with depth := st2.depth - 1 + 1 } : St) = st2
      rw [show st2.depth - 1 + 1 = st2.depth by omega]
    dsimp only at h9'
    rw [e] at h9'
    show printWith (loop cfg mem (max N1 N2 + 1)) a st = _
    unfold printWith
    rw [if_neg (by omega)]
    unfold loop
    rw [if_neg h.notNull, h1']
    dsimp only
    have e2 : (printWith (loop cfg mem (max N1 N2))) = print cfg mem (max N1 N2) := rfl
    rw [e2, runActs_mono_le (Nat.le_max_left _ _) h7]
    exact h9'
  · rw [h10.out]
    show st2.out ++ t' = _
    rw [h8.out, h3]
    simp
  · rw [h10.depth]
    show st2.depth - 1 = _
    rw [h8.depth, hd2, hd1]; omega

theorem put_put (st : St) (a b : Text) : (st.put a).put b = st.put (a ++ b) := by simp [St.put, List.append_assoc]
theorem put_nil (st : St) : st.put [] = st := by simp [St.put]

theorem renders_no_sections {cfg : Config} {mem : Mem} {d : Nat} {S S' : List Nat} {t : Text} (h : Renders cfg mem d S (.sections []) t S') : t = [] ∧ S' = S := by cases h; exact ⟨rfl, rfl⟩
theorem renders_no_pieces {cfg : Config} {mem : Mem} {d : Nat} {S S' : List Nat} {t : Text} (h : Renders cfg mem d S (.pieces []) t S') : t = [] ∧ S' = S := by cases h; exact ⟨rfl, rfl⟩

theorem renders {cfg : Config} {mem : Mem} {d : Nat} {S S' : List Nat} {x : Todo} {t : Text} (h : Renders cfg mem d S x t S') :
    Writes cfg mem d S (fun n => runTodo cfg mem n x) t S' := by
  induction h with
  | null d S hd => exact writes_zero hd
  | deep d S a hd => exact writes_deep hd
  | pyNone d S a hd h =>
      obtain ⟨tp, ty, size, hobj, hpr, hn⟩ := h
      refine writes_stop hobj ?_ hd
      unfold printerOf
      rw [hpr]
      dsimp only
      rw [readString_at hn, if_pos noneName_text]
  | bool d S a b hd h =>
      obtain ⟨ty, size, ⟨tp, hobj, hpr⟩, hsz, hv⟩ := h
      refine writes_leaf (k := .bool) hobj (printerOf_some hpr) hd (fun h => nomatch h) (fun buf hb => ?_)
      have hf : (if cfg.two then field buf 16 8 else field buf 24 4) = .ok (if b then 1 else 0) := by
        by_cases h2 : cfg.two = true
        · rw [if_pos h2] at hv ⊢; exact field_at hb hv (by omega)
        · rw [if_neg h2] at hv ⊢; exact field_at hb hv (by omega)
      refine ⟨[.say (if b then "True" else "False").toList], ?_, fun pr st0 => rfl⟩
      show (Script.lift (if cfg.two then field buf 16 8 else field buf 24 4) >>= _) = _
      rw [hf]
      cases b <;> rfl
  | int d S a z hd h h1 h2 =>
      obtain ⟨tp, ty, size, hobj, hpr, hv⟩ := longValue_at h h1 h2
      refine writes_leaf (k := .long) hobj (printerOf_some hpr) hd (fun h => nomatch h) (fun buf hb => ?_)
      refine ⟨[.say (toString z).toList], ?_, fun pr st0 => rfl⟩
      show (Script.lift (longValue buf) >>= _) = _
      rw [hv buf hb]
      rfl
  | str d S a s hd h hs =>
      obtain ⟨ty, size, tp, hobj, hpr⟩ := h
      refine writes_leaf (k := .string) hobj (printerOf_some hpr) hd (fun h => nomatch h) (fun buf hb => ?_)
      refine ⟨[.say ['"'], .say (textOf s), .say ['"']], ?_, fun pr st0 => ?_⟩
      · show (Script.lift (pyString cfg mem a) >>= _) = _
        rw [pyString_at hs]
        rfl
      · simp only [runActs, put_put]
  | again d S a hd h ha =>
      obtain ⟨tp, ty, size, hobj, h⟩ := h
      rcases h with ⟨k, hpr, h1, h2, h3, h4, h5⟩ | ⟨hpr, hf, name, hn, hne⟩
      · refine writes_again hobj (printerOf_some hpr) ?_ hd ha
        cases k <;> first | rfl | contradiction
      · exact writes_again hobj (printerOf_heap hpr hf hn hne) rfl hd ha
  | list d S a l t S' hd h ha _ ih =>
      obtain ⟨ty, p, ⟨tp, hobj, hpr⟩, hi, hb, hp, hl⟩ := h
      refine writes_box hobj (printerOf_some hpr) rfl hd ha (fun buf hbuf => ?_) ih
      exact listScript_at hbuf (by unfold objBytes; omega) hobj.obSize hp hl
  | unit d S a hd h ha =>
      obtain ⟨ty, ⟨tp, hobj, hpr⟩, hb, ha24, hl⟩ := h
      refine writes_leaf (k := .tuple) hobj (printerOf_some hpr) hd (fun _ => ha) (fun buf hbuf => ?_)
      exact ⟨_, tupleScript_unit hbuf (by unfold objBytes; omega) hobj.obSize, fun pr st0 => rfl⟩
  | tuple d S a l t S' hd h hne ha _ ih =>
      obtain ⟨ty, ⟨tp, hobj, hpr⟩, hb, ha24, hl⟩ := h
      refine writes_box hobj (printerOf_some hpr) rfl hd ha (fun buf hbuf => ?_) ih
      exact tupleScript_at hbuf (by unfold objBytes; omega) hobj.obSize ha24 hl hne
  | emptyDict d S a hd htwo h ha =>
      obtain ⟨ty, size, ⟨tp, hobj, hpr⟩, hsz, hu⟩ := h
      refine writes_leaf (k := .dict) hobj (printerOf_some hpr) hd (fun _ => ha) (fun buf hbuf => ?_)
      refine ⟨[.say "{}".toList], ?_, fun pr st0 => rfl⟩
      show (if cfg.two then _ else _) = _
      rw [htwo]
      exact dict3Script_empty hbuf hsz hu
  | cutDict d S a l hd htwo h ha hmax =>
      obtain ⟨ty, size, used, p, values, slots, key, value, ⟨tp, hobj, hpr⟩, hsz, hu, hu0, hp, hv, hk, hl⟩ := h
      refine writes_leaf (k := .dict) hobj (printerOf_some hpr) hd (fun _ => ha) (fun buf hbuf => ?_)
      refine ⟨[.say "{ ... }".toList], ?_, fun pr st0 => rfl⟩
      show (if cfg.two then _ else _) = _
      rw [htwo]
      exact dict3Script_cut hbuf hsz hu hu0 (by omega)
  | dict d S a l t S' hd htwo h ha hmax _ ih => exact dict_box htwo h hd ha hmax ih
  | module d S a m t S' hd h ha _ ih =>
      obtain ⟨ty, size, ⟨tp, hobj, hpr⟩, hsz, hm⟩ := h
      intro st hd1 hS htypes
      obtain ⟨st1, buf, h1, h2, h3, h4, h5, h6⟩ := round_call hobj (printerOf_some hpr) { st with depth := st.depth + 1 } htypes (fun _ => by show a ∉ st.visited; rw [hS]; exact ha)
      obtain ⟨N, st2, h7, h8⟩ := ih st1 (by rw [h4]; show st.depth + 1 = _; rw [hd1]; omega) (by rw [h5]; show a :: st.visited = _; rw [hS]) h6
      have hscr : script cfg mem ty buf a (st.depth + 1) .module = ⟨[.obj m], .ok 0⟩ := by
        show (Script.lift (field buf 16 8) >>= _) = _
        rw [field_at h2 hm (by omega)]
        rfl
      have h1' : round cfg mem a { st with depth := st.depth + 1 } = .call st1 ⟨[.obj m], .ok 0⟩ := by
        rw [h1, ← hscr]
      refine ⟨N + 2, _, print_call hobj.notNull (by omega) h1' rfl (by
        show runActs (print cfg mem (N + 1)) [.obj m] st1 = _
        rw [runActs_obj (print_mono (Nat.le_succ N) h7)]
        rfl), ?_, ?_, ?_, ?_⟩
      · show st2.out = _
        rw [h8.out, h3]
      · show st2.depth - 1 = _
        rw [h8.depth, h4]
        show st.depth + 1 - 1 = _
        omega
      · exact h8.visited
      · exact h8.types
  | bare d S a name hd h ha =>
      obtain ⟨tp, ty, size, hobj, hpr, hf, hn, hne, hdo⟩ := h
      refine writes_leaf (k := .heap) hobj (printerOf_heap hpr hf hn hne) hd (fun _ => ha) (fun buf hbuf => ?_)
      refine ⟨[.say (textOf name)], ?_, fun pr st0 => rfl⟩
      show heapScript mem ty a = _
      unfold heapScript
      dsimp only at hdo
      rw [readString_at hn, hdo]
      simp [sayText]
  | «instance» d S a name m t S' hd h ha _ ih =>
      obtain ⟨tp, ty, size, hobj, hpr, hf, hn, hne, hdo⟩ := h
      dsimp only at hdo
      obtain ⟨hpos, hfit, hm⟩ := hdo
      intro st hd1 hS htypes
      obtain ⟨st1, buf, h1, h2, h3, h4, h5, h6⟩ := round_call hobj (printerOf_heap hpr hf hn hne) { st with depth := st.depth + 1 } htypes (fun _ => by show a ∉ st.visited; rw [hS]; exact ha)
      obtain ⟨N, st2, h7, h8⟩ := ih { (st1.put (textOf name)).put "\n".toList with depth := st1.depth + 1 } (by show st1.depth + 1 = _; rw [h4]; show st.depth + 1 + 1 = _; rw [hd1]; omega)
        (by show st1.visited = _; rw [h5]; show a :: st.visited = _; rw [hS]) h6
      have hscr : script cfg mem ty buf a (st.depth + 1) .heap = ⟨[.say (textOf name), .say "\n".toList, .deeper, .obj m, .shallower, .say "\n".toList], .ok 0⟩ := by
        show heapScript mem ty a = _
        unfold heapScript
        rw [readString_at hn, if_pos hpos, Nat.mod_eq_of_lt (by unfold W64; omega), readPtr_at hm]
        simp [sayText, say]
      have h1' : round cfg mem a { st with depth := st.depth + 1 } = .call st1 ⟨[.say (textOf name), .say "\n".toList, .deeper, .obj m, .shallower, .say "\n".toList], .ok 0⟩ := by
        rw [h1, ← hscr]
      refine ⟨N + 2, _, print_call hobj.notNull (by omega) h1' rfl (by
        show runActs (print cfg mem (N + 1)) [.say (textOf name), .say "\n".toList, .deeper, .obj m, .shallower, .say "\n".toList] st1 = _
        rw [runActs_say, runActs_say, runActs_deeper]
        exact (runActs_obj (print_mono (Nat.le_succ N) h7)).trans rfl), ?_, ?_, ?_, ?_⟩
      · show st2.out ++ "\n".toList = _
        rw [h8.out]
        show st1.out ++ textOf name ++ "\n".toList ++ t ++ "\n".toList = _
        rw [h3]
        simp [List.append_assoc]
      · show st2.depth - 1 - 1 = _
        rw [h8.depth]
        show st1.depth + 1 - 1 - 1 = _
        rw [h4]
        show st.depth + 1 + 1 - 1 - 1 = _
        omega
      · exact h8.visited
      · exact h8.types
  | itemsNil d S => exact fun st hd1 hS htypes => ⟨0, st, rfl, by simp, rfl, hS, htypes⟩
  | itemsCons d S a l t S' t' S'' _ _ ih1 ih2 =>
      intro st hd1 hS htypes
      obtain ⟨N1, st1, h1, h2⟩ := ih1 (st.put (prefixText st.depth)) hd1 hS htypes
      obtain ⟨N2, st2, h3, h4⟩ := ih2 (st1.put ",\n".toList) (by show st1.depth = _; rw [h2.depth]; exact hd1) h2.visited h2.types
      refine ⟨max N1 N2, st2, ?_, ?_, ?_, h4.visited, h4.types⟩
      · show runActs (print cfg mem (max N1 N2)) (itemActs (a :: l)) st = _
        rw [itemActs, runActs_indent, runActs_obj (print_mono (Nat.le_max_left _ _) h1), runActs_say]
        exact runActs_mono_le (Nat.le_max_right _ _) h3
      · rw [h4.out]
        show st1.out ++ _ ++ _ = _
        rw [h2.out]
        show st.out ++ prefixText st.depth ++ _ ++ _ ++ _ = _
        rw [prefixText_eq hd1]
        simp [List.append_assoc]
      · rw [h4.depth]; show st1.depth = _; rw [h2.depth]; rfl
  | pairsNil d S => exact fun st hd1 hS htypes => ⟨0, st, rfl, by simp, rfl, hS, htypes⟩
  | pairsCons d S k v l t S' t' S'' t'' S''' _ _ _ ih1 ih2 ih3 =>
      intro st hd1 hS htypes
      obtain ⟨N1, st1, h1, h2⟩ := ih1 (st.put (prefixText st.depth)) hd1 hS htypes
      obtain ⟨N2, st2, h3, h4⟩ := ih2 (st1.put " : ".toList) (by show st1.depth = _; rw [h2.depth]; exact hd1) h2.visited h2.types
      obtain ⟨N3, st3, h5, h6⟩ := ih3 (st2.put "\n".toList) (by show st2.depth = _; rw [h4.depth]; show st1.depth = _; rw [h2.depth]; exact hd1) h4.visited h4.types
      refine ⟨max N1 (max N2 N3), st3, ?_, ?_, ?_, h6.visited, h6.types⟩
      · show runActs (print cfg mem (max N1 (max N2 N3))) (pairActs ((k, v) :: l)) st = _
        rw [pairActs, runActs_indent, runActs_obj (print_mono (Nat.le_max_left _ _) h1), runActs_say,
          runActs_obj (print_mono (Nat.le_trans (Nat.le_max_left _ _) (Nat.le_max_right _ _)) h3), runActs_say]
        exact runActs_mono_le (Nat.le_trans (Nat.le_max_right _ _) (Nat.le_max_right _ _)) h5
      · rw [h6.out]
        show st2.out ++ _ ++ _ = _
        rw [h4.out]
        show st1.out ++ _ ++ _ ++ _ ++ _ = _
        rw [h2.out]
        show st.out ++ prefixText st.depth ++ _ ++ _ ++ _ ++ _ ++ _ = _
        rw [prefixText_eq hd1]
        simp [List.append_assoc]
      · rw [h6.depth]; show st2.depth = _; rw [h4.depth]; show st1.depth = _; rw [h2.depth]; rfl
  | float d S a v hd h =>
      obtain ⟨ty, size, ⟨tp, hobj, hpr⟩, hsz, hv⟩ := h
      refine writes_leaf (k := .float) hobj (printerOf_some hpr) hd (fun h => nomatch h) (fun buf hb => ?_)
      refine ⟨[.say (cfg.float v)], ?_, fun pr st0 => rfl⟩
      show (Script.lift (field buf 16 8) >>= _) = _
      rw [field_at hb hv (by omega)]
      rfl
  | type d S a name hd h ha =>
      obtain ⟨ty, size, p, ⟨tp, hobj, hpr⟩, hsz, hp, hn⟩ := h
      refine writes_leaf (k := .type) hobj (printerOf_some hpr) hd (fun _ => ha) (fun buf hb => ?_)
      refine ⟨[.say "type :\"".toList, .say (textOf name), .say ['"']], ?_, fun pr st0 => ?_⟩
      · show (Script.lift (field buf 24 8) >>= _) = _
        rw [field_at hb hp (by omega), Script.bind_lift, readString_at hn]
        rfl
      · simp only [runActs, put_put]
  | other d S a t name hd h =>
      obtain ⟨ty, size, hobj, hpr, hf, hn, hne⟩ := h
      refine writes_stop hobj ?_ hd
      unfold printerOf
      rw [hpr]
      dsimp only
      rw [readString_at hn, if_neg (by rw [← noneName_text]; exact fun e => hne (textOf_inj e)), if_neg (by simp [hf])]
      rfl
  | int2 d S a z hd h =>
      obtain ⟨ty, size, ⟨tp, hobj, hpr⟩, hsz, hv⟩ := h
      refine writes_leaf (k := .int) hobj (printerOf_some hpr) hd (fun h => nomatch h) (fun buf hb => ?_)
      refine ⟨[.say (toString z).toList], ?_, fun pr st0 => rfl⟩
      obtain ⟨x, hx, hx'⟩ := intField_at (by omega) hb hv (by omega)
      show (Script.lift (field buf 16 8) >>= _) = _
      rw [hx, Script.bind_lift, hx']
      rfl
  | klass d S a n t S' hd h ha _ ih =>
      obtain ⟨ty, size, ⟨tp, hobj, hpr⟩, hsz, hv⟩ := h
      have := writes_call (k := .klass) (acts := [.say "<class ".toList, .obj n, .say ">".toList]) (next := 0) hobj (printerOf_some hpr) rfl hd ha (fun buf hb => by
        show (Script.lift (field buf 32 8) >>= _) = _
        rw [field_at hb hv (by omega)]
        rfl) (wacts_say (wacts_obj ih (wacts_say wacts_nil))) (writes_zero hd)
      show Writes cfg mem d S (fun n => print cfg mem n a) _ _
      simpa using this
  | oldInstance d S a c m t S' t' S'' hd h ha _ _ ih1 ih2 =>
      obtain ⟨ty, size, ⟨tp, hobj, hpr⟩, hsz, hc, hm⟩ := h
      have := writes_call (k := .instance) (next := 0)
        (acts := .deeper :: ([.say "\n".toList, .indent, .say "class: ".toList] ++ ((.deeper :: ([.obj c] ++ [.shallower])) ++ ([.say "\n".toList, .indent, .say "dict: \n".toList] ++
          (.deeper :: ([.obj m] ++ [.shallower])))) ++ [.shallower])) hobj (printerOf_some hpr) rfl hd ha (fun buf hb => by
        show (Script.lift (field buf 16 8) >>= _) = _
        rw [field_at hb hc (by omega), Script.bind_lift, field_at hb hm (by omega), Script.bind_lift]
        simp [say]) (wacts_nest (wacts_append (wacts_say (wacts_indent (wacts_say wacts_nil))) (wacts_append (wacts_nest (wacts_obj ih1 wacts_nil))
          (wacts_append (wacts_say (wacts_indent (wacts_say wacts_nil))) (wacts_nest (wacts_obj ih2 wacts_nil)))))) (writes_zero hd)
      show Writes cfg mem d S (fun n => print cfg mem n a) _ _
      simpa using this
  | emptyDict2 d S a hd htwo h ha =>
      obtain ⟨ty, size, ⟨tp, hobj, hpr⟩, hsz, hu⟩ := h
      refine writes_leaf (k := .dict) hobj (printerOf_some hpr) hd (fun _ => ha) (fun buf hbuf => ?_)
      refine ⟨[.say "{}".toList], ?_, fun pr st0 => rfl⟩
      show (if cfg.two then _ else _) = _
      rw [htwo]
      exact dict2Script_empty hbuf hsz hu
  | cutDict2 d S a l hd htwo h ha hmax =>
      obtain ⟨ty, size, used, p, ⟨tp, hobj, hpr⟩, hsz, hu, hu0, hmask, hne, hp, hfit, hpres, hsl⟩ := h
      refine writes_leaf (k := .dict) hobj (printerOf_some hpr) hd (fun _ => ha) (fun buf hbuf => ?_)
      refine ⟨[.say "{ ... }".toList], ?_, fun pr st0 => rfl⟩
      show (if cfg.two then _ else _) = _
      rw [htwo]
      exact dict2Script_cut hbuf hsz hu hu0 (by omega)
  | dict2 d S a l t S' hd htwo h ha hmax _ ih =>
      obtain ⟨ty, size, used, p, ⟨tp, hobj, hpr⟩, hsz, hu, hu0, hmask, hne, hp, hfit, hpres, hsl⟩ := h
      refine writes_box (inner := pairActs (l.dropLast.filterMap id)) hobj (printerOf_some hpr) rfl hd ha (fun buf hb => ?_) ih
      show (if cfg.two then _ else _) = _
      rw [htwo]
      exact dict2Script_at hb hsz hu hu0 (by omega) hmask hne hp hfit hpres hsl
  | frame d S a f t1 S1 t2 S2 t3 S3 t4 S4 hd h ha _ r2 r3 _ ih1 ih2 ih3 ih4 =>
      obtain ⟨ty, size, ⟨tp, hobj, hpr⟩, s1, s2, s3, s4, _⟩ := h.frame.obj
      refine writes_call (k := .frame) (next := f.back) hobj (printerOf_some hpr) rfl hd ha (fun buf hb => fullFrameScript h hobj ⟨s1, s2, s3, s4⟩ hb) ?_ ih4
      refine wacts_append (S' := S2) (wacts_append ih1 ?_) ?_
      · cases hl : cfg.dolocals with
        | false =>
            rw [hl] at r2
            obtain ⟨rfl, rfl⟩ := renders_no_sections r2
            exact wacts_nil
        | true =>
            rw [hl] at ih2
            simp only [if_true] at ih2 ⊢
            exact wacts_nest ih2
      · by_cases hc : cfg.dolocals = true ∧ f.locals ≠ 0
        · rw [if_pos hc] at ih3 ⊢
          exact wacts_nest ih3
        · rw [if_neg hc] at r3 ⊢
          obtain ⟨rfl, rfl⟩ := renders_no_pieces r3
          exact wacts_nil
  | piecesNil d S => exact wacts_nil
  | piecesText d S x l t S' _ ih => exact wacts_say ih
  | piecesLine d S l t S' _ ih => exact wacts_indent ih
  | piecesObj d S a l t S' t' S'' _ _ ih1 ih2 => exact wacts_obj ih1 ih2
  | varsNil d S => exact wacts_nil
  | varsCons d S n v l t S1 t' S2 t'' S3 _ _ _ ih1 ih2 ih3 =>
      have := wacts_indent (wacts_obj ih1 (wacts_say (x := "=".toList) (wacts_obj ih2 (wacts_say (x := "\n".toList) ih3))))
      show WritesActs cfg mem d S (varActs ((n, v) :: l)) _ _
      simpa [List.append_assoc, varActs] using this
  | sectionsNil d S => exact wacts_nil
  | sectionsNone d S name r t S' _ ih => exact ih
  | sectionsCons d S name l r t S' t' S'' hne _ _ ih1 ih2 =>
      have := wacts_indent (wacts_say (x := name) (wacts_say (x := ":\n".toList) (wacts_append (wacts_nest ih1) ih2)))
      cases l with
      | nil => exact absurd rfl hne
      | cons v l =>
          show WritesActs cfg mem d S (sectionActs ((name, v :: l) :: r)) _ _
          simpa [List.append_assoc, sectionActs] using this

end Pstack.Python
