import Verif.Proof.PythonSample
/-
What goes wrong: memory that cannot be read. And versions in file names.
-/
namespace Pstack.Python
open Pstack.Spec

theorem bytesAt_present {mem : Mem} : ∀ {n a : Nat} {l : List Byte}, bytesAt mem a n = some l → Present mem a n
  | 0, _, _, _ => fun i hi => absurd hi (by omega)
  | n + 1, a, l, h => by
      intro i hi
      unfold bytesAt at h
      cases h1 : mem a with
      | none => rw [h1] at h; cases h
      | some b =>
          cases h2 : bytesAt mem (a + 1) n with
          | none => rw [h1, h2] at h; cases h
          | some l' =>
              cases i with
              | zero => exact ⟨b, h1⟩
              | succ i =>
                  have := bytesAt_present h2 i (by omega)
                  rwa [show a + 1 + i = a + (i + 1) by omega] at this

/-- The head of an object in use. -/
structure HeadAt (mem : Mem) (a t : Nat) : Prop where
  notNull : a ≠ 0
  present : Present mem a 24
  refcnt : ∃ r, r ≠ 0 ∧ NumAt mem a 8 r
  type : NumAt mem (a + 8) 8 t

theorem head_read {mem : Mem} {a t : Nat} (h : HeadAt mem a t) : ∃ l, readObj mem a 24 = .ok l ∧ num (l.take 8) ≠ 0 ∧ num ((l.drop 8).take 8) = t := by
  obtain ⟨l, h1, h2⟩ := readObj_present h.present
  obtain ⟨r, hr0, hr⟩ := h.refcnt
  refine ⟨l, h1, ?_, num_at h2 h.type (by omega)⟩
  have := num_at (off := 0) h2 (by simpa using hr) (by omega)
  rw [List.drop_zero] at this
  rw [this]; exact hr0

theorem readType_exc {cfg : Config} {mem : Mem} {t : Nat} (hs : cfg.lay.typeSize ≠ 0) (h : ¬ Present mem t cfg.lay.typeSize) : readType cfg mem t = .exc := by
  have : readObj mem t cfg.lay.typeSize = .exc := by
    unfold readObj
    rw [if_neg hs]
    cases hb : bytesAt mem t cfg.lay.typeSize with
    | none => rfl
    | some l => exact absurd (bytesAt_present hb) h
  unfold readType
  rw [this]
  rfl

theorem round_fail {cfg : Config} {mem : Mem} {a t : Nat} {st : St} (h : HeadAt mem a t) (hs : cfg.lay.typeSize ≠ 0) (hp : ¬ Present mem t cfg.lay.typeSize) (hl : st.types.lookup t = none) :
    round cfg mem a st = .fail { st with types := (t, none) :: st.types } := by
  obtain ⟨l, h1, h2, h3⟩ := head_read h
  unfold round
  rw [h1]
  dsimp only
  rw [if_neg h2, h3]
  unfold typeOf
  rw [hl, readType_exc hs hp]

theorem round_bad {cfg : Config} {mem : Mem} {a t : Nat} {st : St} (h : HeadAt mem a t) (hl : st.types.lookup t = some none) : round cfg mem a st = .bad := by
  obtain ⟨l, h1, h2, h3⟩ := head_read h
  unfold round
  rw [h1]
  dsimp only
  rw [if_neg h2, h3]
  unfold typeOf
  rw [hl]

/-- The first object of a type that cannot be read fails, the second is undefined behaviour. -/
theorem type_twice {cfg : Config} {mem : Mem} {a b t : Nat} (ha : HeadAt mem a t) (hb : HeadAt mem b t) (hs : cfg.lay.typeSize ≠ 0) (hp : ¬ Present mem t cfg.lay.typeSize) {n : Nat} :
    ∃ st, print cfg mem (n + 1) a newPrinter = some (.ok st) ∧ st.out = "(print failed:".toList ++ cfg.what ++ ")".toList ∧ print cfg mem (n + 1) b st = some .ub := by
  have h1 := round_fail (st := { newPrinter with depth := newPrinter.depth + 1 }) ha hs hp rfl
  refine ⟨{ newPrinter with types := [(t, none)], out := "(print failed:".toList ++ cfg.what ++ ")".toList }, ?_, rfl, ?_⟩
  · unfold print printWith
    rw [if_neg (by decide)]
    unfold loop
    rw [if_neg ha.notNull, h1]
    rfl
  · unfold print printWith
    rw [if_neg (by show ¬ (0 : Int) > 10000; decide)]
    unfold loop
    rw [if_neg hb.notNull, round_bad hb (by show ([(t, none)] : List (Nat × Option TypeObj)).lookup t = _; simp)]

theorem readPtr_exc {mem : Mem} {a : Nat} (h : ¬ Present mem a 8) : readPtr mem a = .exc := by
  unfold readPtr readObj
  rw [if_neg (by decide)]
  cases hb : bytesAt mem a 8 with
  | none => rfl
  | some l => exact absurd (bytesAt_present hb) h

/-- After an object whose dictionary cannot be read, the depth is one more. -/
theorem heap_depth {cfg : Config} {mem : Mem} {a t : Nat} {ty : TypeObj} {size : Int} {name : List Byte} (hobj : ObjAt cfg mem a t ty size) (hpr : cfg.printers t = none) (hf : ty.flags.testBit 9 = true)
    (hn : CStrAt mem ty.name name) (hne : name ≠ [0x4e#8, 0x6f#8, 0x6e#8, 0x65#8, 0x54#8, 0x79#8, 0x70#8, 0x65#8]) (hpos : 0 < ty.dictoffset) (hfit : a + ty.dictoffset < 2 ^ 64)
    (hbad : ¬ Present mem (a + ty.dictoffset.toNat) 8) {n : Nat} :
    ∃ st, print cfg mem (n + 1) a newPrinter = some (.ok st) ∧ st.out = textOf name ++ "\n".toList ++ ("(print failed:".toList ++ cfg.what ++ ")".toList) ∧ st.depth = newPrinter.depth + 1 := by
  obtain ⟨st1, buf, h1, h2, h3, h4, h5, h6⟩ := round_call hobj (printerOf_heap hpr hf hn hne) { newPrinter with depth := newPrinter.depth + 1 } typesOk_nil (fun _ h => nomatch h)
  have hscr : script cfg mem ty buf a (newPrinter.depth + 1) .heap = ⟨[.say (textOf name), .say "\n".toList, .deeper], .exc⟩ := by
    show heapScript mem ty a = _
    unfold heapScript
    rw [readString_at hn, if_pos hpos, Nat.mod_eq_of_lt (by unfold W64; omega), readPtr_exc hbad]
    simp [sayText, say, Script.lift, bind, Script.bind, act]
  have h1' : round cfg mem a { newPrinter with depth := newPrinter.depth + 1 } = .call st1 ⟨[.say (textOf name), .say "\n".toList, .deeper], .exc⟩ := by rw [h1, ← hscr]
  refine ⟨{ St.failed cfg { (st1.put (textOf name)).put "\n".toList with depth := st1.depth + 1 } with depth := st1.depth + 1 - 1 }, ?_, ?_, ?_⟩
  · unfold print printWith
    rw [if_neg (by decide)]
    unfold loop
    rw [if_neg hobj.notNull, h1']
    rfl
  · show st1.out ++ textOf name ++ "\n".toList ++ _ = _
    rw [h3]
    rfl
  · show st1.depth + 1 - 1 = _
    rw [h4]
    rfl

/-- An index that cannot be read. -/
theorem index_ub {cfg : Config} {mem : Mem} {a used p values size : Nat} {ty : TypeObj} {obSize : Int} (htwo : cfg.two = false) (hmax : 1 ≤ cfg.maxdepth) (hk : OfKind cfg mem a .dict ty obSize)
    (hsz : 48 ≤ objBytes ty obSize) (hu : NumAt mem (a + 16) 8 used) (hu0 : used ≠ 0) (hp : NumAt mem (a + 32) 8 p) (hv : NumAt mem (a + 40) 8 values) (hpres : Present mem p 40)
    (hs : IntAt mem (p + 8) 8 size) (hs0 : size ≠ 0) (hfit : p + 40 < 2 ^ 64) (hbad : mem (p + 40) = none) : PrintUndefined cfg mem a := by
  obtain ⟨tp, hobj, hpr⟩ := hk
  refine ⟨1, fun n hn => print_mono hn ?_⟩
  obtain ⟨st1, buf, h1, h2, -⟩ := round_call hobj (printerOf_some hpr) { newPrinter with depth := newPrinter.depth + 1 } typesOk_nil (fun _ h => nomatch h)
  obtain ⟨l, hl1, hl2⟩ := readObj_present hpres
  obtain ⟨x, hx1, hx2⟩ := intField_at (by omega) hl2 hs (by omega)
  have hw : ∀ w, 0 < w → readIndex mem ((p + 40 + 0 * w) % W64) w = .ub := by
    intro w hw
    rw [Nat.zero_mul, Nat.add_zero, Nat.mod_eq_of_lt (by unfold W64; omega)]
    unfold readIndex
    cases w with
    | zero => omega
    | succ w => simp only [bytesAt, hbad]
  have hscr : script cfg mem ty buf a (newPrinter.depth + 1) .dict = ⟨[.say "{\n".toList, .deeper], .ub⟩ := by
    show (if cfg.two then _ else dict3Script cfg mem buf (newPrinter.depth + 1)) = _
    rw [htwo]
    show dict3Script cfg mem buf (0 + 1) = _
    unfold dict3Script
    rw [field_at h2 hu (by omega), Script.bind_lift, if_neg hu0, if_neg (by omega), field_at h2 hp (by omega), Script.bind_lift, field_at h2 hv (by omega), Script.bind_lift, hl1, Script.bind_lift, hx1,
      Script.bind_lift]
    simp only [hx2]
    obtain ⟨k, hk⟩ : ∃ k, (size : Int).toNat = k + 1 := ⟨size - 1, by omega⟩
    rw [hk, ixSize_eq]
    unfold dictLoop
    rw [hw _ (indexBytes_pos _)]
    rfl
  have h1' : round cfg mem a { newPrinter with depth := newPrinter.depth + 1 } = .call st1 ⟨[.say "{\n".toList, .deeper], .ub⟩ := by rw [h1, ← hscr]
  unfold print printWith
  rw [if_neg (by decide)]
  unfold loop
  rw [if_neg hobj.notNull, h1']
  rfl

/-! ### Strings that are not shown as they are -/

theorem strLoop_cut {mem : Mem} : ∀ (s : List Byte) (n a : Nat), s.length < n → (∀ i (h : i < s.length), mem (a + i) = some s[i]) → (∀ b ∈ s, b ≠ 0) → mem (a + s.length) = some 0 →
    strLoop mem n a = textOf s
  | [], n + 1, a, _, _, _, hz => by
      simp only [List.length_nil, Nat.add_zero] at hz
      simp [strLoop, hz, textOf]
  | b :: s, n + 1, a, hn, hb, hnz, hz => by
      have h0 := hb 0 (by simp)
      simp only [Nat.add_zero, List.getElem_cons_zero] at h0
      have ih := strLoop_cut s n (a + 1) (by simp at hn; omega) (fun i hi => by
        have := hb (i + 1) (by simp; omega)
        rw [show a + 1 + i = a + (i + 1) by omega]
        simpa using this) (fun x hx => hnz x (List.mem_cons_of_mem _ hx)) (by rw [show a + 1 + s.length = a + (b :: s).length by simp; omega]; exact hz)
      simp only [strLoop, h0]
      rw [if_neg (hnz b List.mem_cons_self), ih]
      rfl

/-! ### Versions -/

theorem lastSlash_none : ∀ (l : Text) (i : Nat), '/' ∉ l → lastSlash l i = none
  | [], _, _ => rfl
  | c :: l, i, h => by
      simp only [List.mem_cons, not_or] at h
      simp [lastSlash, lastSlash_none l (i + 1) h.2, Ne.symm h.1]

theorem lastSlash_some : ∀ (d l : Text) (i : Nat), '/' ∉ l → lastSlash (d ++ '/' :: l) i = some (i + d.length)
  | [], l, i, h => by simp [lastSlash, lastSlash_none l (i + 1) h]
  | c :: d, l, i, h => by
      simp [lastSlash, lastSlash_some d l (i + 1) h]
      omega

theorem findPython_at : ∀ (u w : Text) (i : Nat), (∀ j, j < u.length → "python".toList.isPrefixOf ((u ++ ("python".toList ++ w)).drop j) = false) →
    findPython (u ++ ("python".toList ++ w)) i = some (i + u.length)
  | [], w, i, _ => by
      show findPython ('p' :: ('y' :: 't' :: 'h' :: 'o' :: 'n' :: w)) i = _
      unfold findPython
      rw [if_pos (by
        rw [List.isPrefixOf_iff_prefix]
        exact ⟨w, rfl⟩)]
      rfl
  | c :: u, w, i, h => by
      have h0 := h 0 (by simp)
      rw [List.drop_zero] at h0
      show findPython (c :: (u ++ ("python".toList ++ w))) i = _
      unfold findPython
      rw [if_neg (by
        intro hh
        have h0' : "python".toList.isPrefixOf (c :: (u ++ ("python".toList ++ w))) = false := h0
        rw [h0'] at hh
        cases hh), findPython_at u w (i + 1) (fun j hj => by
        have := h (j + 1) (by simp; omega)
        simpa using this)]
      simp
      omega

theorem first_drop {u w : Text} (h : ∀ u' v', u ++ ("python".toList ++ w) = u' ++ ("python".toList ++ v') → u.length ≤ u'.length) :
    ∀ j, j < u.length → "python".toList.isPrefixOf ((u ++ ("python".toList ++ w)).drop j) = false := by
  intro j hj
  apply Bool.eq_false_iff.2
  intro hp
  rw [List.isPrefixOf_iff_prefix] at hp
  obtain ⟨v', hv'⟩ := hp
  have e : u ++ ("python".toList ++ w) = (u ++ ("python".toList ++ w)).take j ++ ("python".toList ++ v') := by rw [hv', List.take_append_drop]
  have := h _ _ e
  rw [List.length_take] at this
  omega

theorem version_at {dir u w : Text} {M m : Char} {x : Char} (hdir : dir = [] ∨ ∃ d, dir = d ++ ['/']) (hu : '/' ∉ u) (hw : '/' ∉ w) (hx : x ≠ '/') (hM : M.isDigit = true) (hm : m.isDigit = true)
    (hfirst : ∀ u' v', u ++ ("python".toList ++ (M :: x :: m :: w)) = u' ++ ("python".toList ++ v') → u.length ≤ u'.length) :
    version (dir ++ (u ++ ("python".toList ++ (M :: x :: m :: w)))) = .ok (M.toNat - 48, m.toNat - 48) := by
  have hns : '/' ∉ u ++ ("python".toList ++ (M :: x :: m :: w)) := by
    simp only [List.mem_append, List.mem_cons, not_or]
    refine ⟨hu, by decide, ?_, Ne.symm hx, ?_, hw⟩
    · rintro rfl; exact absurd hM (by decide)
    · rintro rfl; exact absurd hm (by decide)
  have hget : ∀ pre : Text, (pre ++ ("python".toList ++ (M :: x :: m :: w)))[pre.length + 6]? = some M ∧ (pre ++ ("python".toList ++ (M :: x :: m :: w)))[pre.length + 8]? = some m := by
    intro pre
    constructor
    · rw [List.getElem?_append_right (by omega), Nat.add_sub_cancel_left]; rfl
    · rw [List.getElem?_append_right (by omega), Nat.add_sub_cancel_left]; rfl
  have hgo : ∀ i, i = (dir ++ u).length → (match (dir ++ (u ++ ("python".toList ++ (M :: x :: m :: w))))[i + 6]?, (dir ++ (u ++ ("python".toList ++ (M :: x :: m :: w))))[i + 8]? with
      | some major, some minor => if major.isDigit ∧ minor.isDigit then Res.ok (major.toNat - 48, minor.toNat - 48) else .exc
      | _, _ => .exc) = .ok (M.toNat - 48, m.toNat - 48) := by
    rintro i rfl
    have := hget (dir ++ u)
    rw [List.append_assoc] at this
    rw [this.1, this.2]
    simp [hM, hm]
  unfold version
  rcases hdir with rfl | ⟨d, rfl⟩
  · rw [List.nil_append, lastSlash_none _ _ hns]
    dsimp only [Option.getD_none, List.drop_zero]
    rw [List.drop_zero, findPython_at u _ 0 (first_drop hfirst)]
    exact hgo _ (by simp)
  · have e : d ++ ['/'] ++ (u ++ ("python".toList ++ (M :: x :: m :: w))) = d ++ '/' :: (u ++ ("python".toList ++ (M :: x :: m :: w))) := by simp
    have hls : lastSlash (d ++ ['/'] ++ (u ++ ("python".toList ++ (M :: x :: m :: w)))) 0 = some d.length := by rw [e, lastSlash_some _ _ _ hns, Nat.zero_add]
    rw [hls]
    dsimp only [Option.getD_some]
    rw [show (d ++ ['/'] ++ (u ++ ("python".toList ++ (M :: x :: m :: w)))).drop d.length = ('/' :: u) ++ ("python".toList ++ (M :: x :: m :: w)) by rw [e, List.drop_left]; rfl,
      findPython_at ('/' :: u) _ d.length (fun j hj => by
        cases j with
        | zero =>
            apply Bool.eq_false_iff.2
            intro hp
            rw [List.isPrefixOf_iff_prefix] at hp
            obtain ⟨v', hv'⟩ := hp
            rw [List.drop_zero] at hv'
            have := (List.cons.inj (show 'p' :: ("ython".toList ++ v') = '/' :: (u ++ ("python".toList ++ (M :: x :: m :: w))) from hv')).1
            exact absurd this (by decide)
        | succ j =>
            have := first_drop hfirst j (by simp at hj; omega)
            simpa using this)]
    exact hgo _ (by simp)

end Pstack.Python
