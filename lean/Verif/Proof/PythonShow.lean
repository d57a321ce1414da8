import Verif.Proof.PythonEnds
/-
What is printed of objects.
-/
namespace Pstack.Python
open Pstack.Spec

/-! ### Types -/

theorem readType_at {cfg : Config} {mem : Mem} {t : Nat} {ty : TypeObj} (h : TypeAt cfg mem t ty) : readType cfg mem t = .ok ty := by
  obtain ⟨l, h1, h2⟩ := readObj_present h.present
  have hs := h.size
  obtain ⟨x, hx1, hx2⟩ := intField_at (by omega) h2 h.dictoffset (by omega)
  unfold readType
  rw [h1, Res.bind_ok, field_at h2 h.name (by omega), Res.bind_ok, field_at h2 h.basicsize (by omega), Res.bind_ok, field_at h2 h.itemsize (by omega), Res.bind_ok,
    field_at h2 h.flags (by omega), Res.bind_ok, hx1, Res.bind_ok, hx2]
  rfl

/-- The types kept are those in memory. -/
def TypesOk (cfg : Config) (mem : Mem) (l : List (Nat × Option TypeObj)) : Prop :=
  ∀ t x, l.lookup t = some x → ∀ ty, readType cfg mem t = .ok ty → x = some ty

/-- The same text, depth and objects seen; the types are right. -/
structure Same (cfg : Config) (mem : Mem) (st st' : St) : Prop where
  out : st'.out = st.out
  depth : st'.depth = st.depth
  visited : st'.visited = st.visited
  types : TypesOk cfg mem st'.types

theorem typeOf_at {cfg : Config} {mem : Mem} {st : St} {t : Nat} {ty : TypeObj} (h : TypeAt cfg mem t ty) (hst : TypesOk cfg mem st.types) :
    ∃ st', typeOf cfg mem st t = (st', .ok ty) ∧ Same cfg mem st st' := by
  have hr := readType_at h
  unfold typeOf
  cases hl : st.types.lookup t with
  | some x =>
      have := hst t x hl ty hr
      subst this
      exact ⟨st, rfl, rfl, rfl, rfl, hst⟩
  | none =>
      rw [hr]
      refine ⟨_, rfl, rfl, rfl, rfl, ?_⟩
      intro t' x hx ty' hr'
      simp only [List.lookup_cons] at hx
      by_cases he : (t' == t) = true
      · rw [he] at hx
        have he' : t' = t := by simpa using he
        subst he'
        cases hx
        rw [hr] at hr'
        cases hr'
        rfl
      · simp only [Bool.not_eq_true] at he
        rw [he] at hx
        exact hst t' x hx ty' hr'

/-! ### A round, for an object that is in order -/

theorem signed8_small {n : Nat} (h : n < 2 ^ 63) : signed 8 (n % W64) = n := by
  rw [Nat.mod_eq_of_lt (by unfold W64; omega)]
  unfold signed
  rw [if_pos (by simpa using h)]

theorem expand_at {cfg : Config} {mem : Mem} {a t : Nat} {ty : TypeObj} {size : Int} (h : ObjAt cfg mem a t ty size) (st : St) (k : Kind) :
    ∃ buf x, bytesAt mem a (objBytes ty size) = some buf ∧ expand cfg mem a st ty k size = .call { st with expanded := x } (script cfg mem ty buf a st.depth k) := by
  obtain ⟨buf, h1, h2⟩ := readObj_present h.present
  refine ⟨buf, if k.dupdetect then st.expanded ++ [a] else st.expanded, h2, ?_⟩
  have e : ty.basicsize + (if ty.itemsize ≠ 0 then ty.itemsize * size.natAbs else 0) = objBytes ty size := by
    unfold objBytes
    split
    · rfl
    · rename_i hz; simp only [ne_eq, Decidable.not_not] at hz; rw [hz]; simp
  unfold expand
  rw [if_neg (by
      rintro ⟨hi, hz⟩
      have := h.small hi
      rw [hz] at this
      exact absurd this (by decide)),
    if_neg (by rintro ⟨hi, hz⟩; have := h.small hi; omega)]
  simp only [e, signed8_small h.fits]
  rw [if_neg (by omega), Int.toNat_natCast, h1]

/-- A round, up to the choice of the printer. -/
theorem round_at {cfg : Config} {mem : Mem} {a t : Nat} {ty : TypeObj} {size : Int} (h : ObjAt cfg mem a t ty size) (st : St) (hst : TypesOk cfg mem st.types) :
    ∃ st', Same cfg mem st st' ∧ round cfg mem a st =
      match printerOf cfg mem a t ty with
      | .inr text => .stop (st'.put text)
      | .inl k =>
          if k.dupdetect ∧ a ∈ st'.visited then .stop (st'.put "(already seen)".toList)
          else expand cfg mem a (if k.dupdetect then { st' with visited := a :: st'.visited } else st') ty k size := by
  obtain ⟨r, hr0, hr⟩ := h.refcnt
  have hp : Present mem a 24 := by
    intro i hi
    by_cases h8 : i < 8
    · exact ⟨_, hr.2 i h8⟩
    · by_cases h16 : i < 16
      · have := h.type.2 (i - 8) (by omega)
        rw [show a + 8 + (i - 8) = a + i by omega] at this
        exact ⟨_, this⟩
      · have := h.obSize.2.2.2 (i - 16) (by omega)
        rw [show a + 16 + (i - 16) = a + i by omega] at this
        exact ⟨_, this⟩
  obtain ⟨l, h1, h2⟩ := readObj_present hp
  obtain ⟨st', h3, h4⟩ := typeOf_at h.typeAt hst
  refine ⟨st', h4, ?_⟩
  have e1 : num (l.take 8) = r := by
    have := num_at (off := 0) h2 (by simpa using hr) (by omega)
    simpa using this
  have e2 := num_at h2 h.type (by omega)
  have e3 := int_at (by omega) h2 h.obSize (by omega)
  unfold round
  rw [h1]
  dsimp only
  rw [e1, if_neg hr0, e2, h3, e3]
  rfl

theorem printerOf_some {cfg : Config} {mem : Mem} {a t : Nat} {ty : TypeObj} {k : Kind} (h : cfg.printers t = some k) : printerOf cfg mem a t ty = .inl k := by
  unfold printerOf; rw [h]

/-- An object with a printer, that was not yet seen. -/
theorem round_call {cfg : Config} {mem : Mem} {a t : Nat} {ty : TypeObj} {size : Int} {k : Kind} (h : ObjAt cfg mem a t ty size) (hp : printerOf cfg mem a t ty = .inl k)
    (st : St) (hst : TypesOk cfg mem st.types) (hv : k.dupdetect = true → a ∉ st.visited) :
    ∃ st' buf, round cfg mem a st = .call st' (script cfg mem ty buf a st.depth k) ∧ bytesAt mem a (objBytes ty size) = some buf ∧ st'.out = st.out ∧ st'.depth = st.depth ∧
      st'.visited = (if k.dupdetect then a :: st.visited else st.visited) ∧ TypesOk cfg mem st'.types := by
  obtain ⟨st1, hs, hr⟩ := round_at h st hst
  rw [hp] at hr
  dsimp only at hr
  rw [if_neg (by rintro ⟨hk, hm⟩; rw [hs.visited] at hm; exact hv hk hm)] at hr
  generalize hst2 : (if k.dupdetect then { st1 with visited := a :: st1.visited } else st1 : St) = st2 at hr
  obtain ⟨buf, x, hb, he⟩ := expand_at h st2 k
  have h2 : st2.out = st.out ∧ st2.depth = st.depth ∧ st2.visited = (if k.dupdetect then a :: st.visited else st.visited) ∧ TypesOk cfg mem st2.types := by
    rw [← hst2]
    cases k.dupdetect
    · exact ⟨hs.out, hs.depth, hs.visited, hs.types⟩
    · exact ⟨hs.out, hs.depth, by simp [hs.visited], hs.types⟩
  refine ⟨{ st2 with expanded := x }, buf, ?_, hb, h2.1, h2.2.1, h2.2.2.1, h2.2.2.2⟩
  rw [hr, he, h2.2.1]

theorem round_again {cfg : Config} {mem : Mem} {a t : Nat} {ty : TypeObj} {size : Int} {k : Kind} (h : ObjAt cfg mem a t ty size) (hp : printerOf cfg mem a t ty = .inl k)
    (hk : k.dupdetect = true) (st : St) (hst : TypesOk cfg mem st.types) (hv : a ∈ st.visited) :
    ∃ st', Same cfg mem st st' ∧ round cfg mem a st = .stop (st'.put "(already seen)".toList) := by
  obtain ⟨st1, hs, hr⟩ := round_at h st hst
  rw [hp] at hr
  dsimp only at hr
  rw [if_pos ⟨hk, by rw [hs.visited]; exact hv⟩] at hr
  exact ⟨st1, hs, hr⟩

/-! ### Printing -/

/-- After printing `t`. -/
structure Wrote (cfg : Config) (mem : Mem) (st : St) (t : Text) (S : List Nat) (st' : St) : Prop where
  out : st'.out = st.out ++ t
  depth : st'.depth = st.depth
  visited : st'.visited = S
  types : TypesOk cfg mem st'.types

theorem print_stop {cfg : Config} {mem : Mem} {n a : Nat} {st st' : St} (ha : a ≠ 0) (hd : st.depth ≤ 10000) (h : round cfg mem a { st with depth := st.depth + 1 } = .stop st') :
    print cfg mem (n + 1) a st = some (.ok { st' with depth := st'.depth - 1 }) := by
  unfold print printWith
  rw [if_neg (by omega)]
  unfold loop
  rw [if_neg ha, h]

theorem print_call {cfg : Config} {mem : Mem} {n a : Nat} {st st1 st2 : St} {s : Script Nat} (ha : a ≠ 0) (hd : st.depth ≤ 10000)
    (h : round cfg mem a { st with depth := st.depth + 1 } = .call st1 s) (hs : s.res = .ok 0) (hr : runActs (print cfg mem (n + 1)) s.acts st1 = some (.ok st2)) :
    print cfg mem (n + 2) a st = some (.ok { st2 with depth := st2.depth - 1 }) := by
  unfold print printWith
  rw [if_neg (by omega)]
  unfold loop
  rw [if_neg ha, h]
  dsimp only
  have e : (printWith (loop cfg mem (n + 1))) = print cfg mem (n + 1) := rfl
  rw [e, hr]
  dsimp only
  rw [hs]
  simp [loop]

/-- Something without objects inside. -/
theorem print_leaf {cfg : Config} {mem : Mem} {a t d : Nat} {ty : TypeObj} {size : Int} {k : Kind} {text : Text} {st : St} (h : ObjAt cfg mem a t ty size)
    (hp : printerOf cfg mem a t ty = .inl k) (hd : st.depth = d) (hd' : d ≤ 10000) (hst : TypesOk cfg mem st.types) (hv : k.dupdetect = true → a ∉ st.visited)
    (hs : ∀ buf, bytesAt mem a (objBytes ty size) = some buf → ∃ l, script cfg mem ty buf a (d + 1) k = ⟨l, .ok 0⟩ ∧
      ∀ pr st0, runActs pr l st0 = some (.ok (st0.put text))) :
    ∃ st', print cfg mem 2 a st = some (.ok st') ∧ Wrote cfg mem st text (if k.dupdetect then a :: st.visited else st.visited) st' := by
  obtain ⟨st1, buf, h1, h2, h3, h4, h5, h6⟩ := round_call h hp { st with depth := st.depth + 1 } hst hv
  obtain ⟨l, hl, hrun⟩ := hs buf h2
  rw [hd] at h1
  rw [hl] at h1
  refine ⟨_, print_call h.notNull (by omega) (by rw [hd]; exact h1) rfl (hrun _ _), ?_, ?_, ?_, ?_⟩
  · show st1.out ++ text = _
    rw [h3]
  · show st1.depth - 1 = _
    rw [h4]; simp
  · show st1.visited = _
    rw [h5]
  · exact h6

theorem runActs_say {pr : Nat → St → Option (Res St)} {t : Text} {l : List Act} {st : St} : runActs pr (.say t :: l) st = runActs pr l (st.put t) := rfl
theorem runActs_indent {pr : Nat → St → Option (Res St)} {l : List Act} {st : St} : runActs pr (.indent :: l) st = runActs pr l (st.put (prefixText st.depth)) := rfl
theorem runActs_deeper {pr : Nat → St → Option (Res St)} {l : List Act} {st : St} : runActs pr (.deeper :: l) st = runActs pr l { st with depth := st.depth + 1 } := rfl
theorem runActs_shallower {pr : Nat → St → Option (Res St)} {l : List Act} {st : St} : runActs pr (.shallower :: l) st = runActs pr l { st with depth := st.depth - 1 } := rfl
theorem runActs_obj {pr : Nat → St → Option (Res St)} {a : Nat} {l : List Act} {st st' : St} (h : pr a st = some (.ok st')) : runActs pr (.obj a :: l) st = runActs pr l st' := by
  simp only [runActs, h]

theorem prefixText_eq {d : Int} {n : Nat} (h : d = n) : prefixText d = pyIndent n := by
  subst h
  unfold prefixText pyIndent
  congr 1
  omega

/-! ### Scripts of containers -/

def itemActs : List Nat → List Act
  | [] => []
  | a :: l => .indent :: .obj a :: .say ",\n".toList :: itemActs l

def pairActs : List (Nat × Nat) → List Act
  | [] => []
  | (k, v) :: l => .indent :: .obj k :: .say " : ".toList :: .obj v :: .say "\n".toList :: pairActs l

theorem items_eq : ∀ l, items l = ⟨itemActs l, .ok ()⟩
  | [] => rfl
  | a :: l => by simp [items, items_eq l, itemActs, say]

theorem listScript_at {mem : Mem} {a n p : Nat} {buf : List Byte} {l : List Nat} (hb : bytesAt mem a n = some buf) (hn : 40 ≤ n) (hs : IntAt mem (a + 16) 8 l.length)
    (hp : NumAt mem (a + 24) 8 p) (hl : PtrsAt mem p l) :
    listScript mem buf = ⟨.say "[ \n".toList :: .deeper :: (itemActs (l.take 100) ++ [.shallower, .indent, .say "]".toList]), .ok 0⟩ := by
  obtain ⟨x, hx1, hx2⟩ := intField_at (by omega) hb hs (by omega)
  unfold listScript
  rw [hx1, field_at hb hp (by omega)]
  have e : (min (l.length : Int) 100).toNat = (l.take 100).length := by simp only [List.length_take]; omega
  simp only [Script.bind_lift, say, Script.bind_act, hx2]
  rw [if_neg (by omega), e, readPtrs_at (ptrsAt_take 100 hl)]
  simp [items_eq]

theorem tupleScript_unit {mem : Mem} {a n : Nat} {buf : List Byte} (hb : bytesAt mem a n = some buf) (hn : 24 ≤ n) (hs : IntAt mem (a + 16) 8 0) :
    tupleScript mem buf a = ⟨[.say "()".toList], .ok 0⟩ := by
  obtain ⟨x, hx1, hx2⟩ := intField_at (by omega) hb hs (by omega)
  unfold tupleScript
  have e : min (0 : Int) 100 = 0 := by decide
  rw [hx1]
  simp [say, hx2, e]

theorem tupleScript_at {mem : Mem} {a n : Nat} {buf : List Byte} {l : List Nat} (hb : bytesAt mem a n = some buf) (hn : 24 ≤ n) (hs : IntAt mem (a + 16) 8 l.length)
    (ha : a + 24 < 2 ^ 64) (hl : PtrsAt mem (a + 24) l) (hne : l ≠ []) :
    tupleScript mem buf a = ⟨.say "( \n".toList :: .deeper :: (itemActs (l.take 100) ++ [.shallower, .indent, .say ")\n".toList]), .ok 0⟩ := by
  obtain ⟨x, hx1, hx2⟩ := intField_at (by omega) hb hs (by omega)
  have hpos : 0 < l.length := List.length_pos_iff.2 hne
  unfold tupleScript
  rw [hx1]
  have e : (min (l.length : Int) 100).toNat = (l.take 100).length := by simp only [List.length_take]; omega
  simp only [Script.bind_lift, say, Script.bind_act, hx2]
  rw [if_neg (by omega), if_neg (by omega), e, Nat.mod_eq_of_lt (by unfold W64; omega), readPtrs_at (ptrsAt_take 100 hl)]
  simp [items_eq]

theorem indexBytes_pos (n : Nat) : 0 < indexBytes n := by unfold indexBytes; split <;> (try split) <;> (try split) <;> omega

theorem readIndex_at {mem : Mem} {a w : Nat} {z : Int} (hw : 0 < w) (h : IntAt mem a w z) : readIndex mem a w = .ok z := by
  obtain ⟨l, h1⟩ := present_bytesAt (numAt_present h.2.2)
  have h2 := int_at (off := 0) hw h1 (by simpa using h) (by omega)
  rw [List.drop_zero, List.take_of_length_le (Nat.le_of_eq (bytesAt_length h1))] at h2
  unfold readIndex
  rw [h1]
  dsimp only
  rw [h2]

theorem slotEntries_drop {slots : List Slot} {i : Nat} : ∀ n ∈ slotEntries (slots.drop i), n ∈ slotEntries slots := by
  induction i generalizing slots with
  | zero => intro n h; exact h
  | succ i ih =>
      intro n h
      cases slots with
      | nil => simpa using h
      | cons s l =>
          have := ih n (by simpa using h)
          cases s <;> simp [slotEntries, this]

theorem dictLoop_at {mem : Mem} {p : Nat} {slots : List Slot} {key value pick : Nat → Nat} {values : Nat} (h : KeysAt mem p slots key value)
    (hpick : ∀ n ∈ slotEntries slots, if values = 0 then pick n = value n else values + n * 8 < 2 ^ 64 ∧ NumAt mem (values + n * 8) 8 (pick n)) :
    ∀ (rest : List Slot) (i : Nat), slots.drop i = rest →
      dictLoop mem p (p + 40 + slots.length * indexBytes slots.length) values (indexBytes slots.length) rest.length i =
        ⟨pairActs ((slotEntries rest).map fun n => (key n, pick n)), .ok ()⟩
  | [], _, _ => rfl
  | s :: rest, i, hd => by
      have hi : i < slots.length := by
        apply Nat.lt_of_not_le
        intro hle
        rw [List.drop_eq_nil_of_le hle] at hd
        cases hd
      have hs : slots[i] = s := by
        have := List.drop_eq_getElem_cons hi
        rw [hd] at this
        exact (List.cons.inj this).1.symm
      have hrest : slots.drop (i + 1) = rest := by
        have := List.drop_eq_getElem_cons hi
        rw [hd] at this
        exact (List.cons.inj this).2.symm
      have ih := dictLoop_at h hpick rest (i + 1) hrest
      have hle : i * indexBytes slots.length ≤ slots.length * indexBytes slots.length := Nat.mul_le_mul_right _ (by omega)
      have hf := h.fits
      have hidx := readIndex_at (indexBytes_pos _) (h.table i hi)
      rw [hs] at hidx
      simp only [List.length_cons, dictLoop]
      rw [Nat.mod_eq_of_lt (show p + 40 + i * indexBytes slots.length < W64 by unfold W64; omega), hidx, Script.bind_lift]
      cases s with
      | empty => simp only [Slot.index]; rw [if_pos (Or.inl trivial), ih]; rfl
      | dummy => simp only [Slot.index]; rw [if_pos (Or.inr trivial), ih]; rfl
      | entry n =>
          have hn : n ∈ slotEntries slots := slotEntries_drop (i := i) n (by rw [hd]; simp [slotEntries])
          have he := h.entries n hn
          dsimp only at he
          obtain ⟨he1, he2, he3, he4⟩ := he
          obtain ⟨l, hl1, hl2⟩ := readObj_present he2
          have hpk := hpick n hn
          rw [if_neg (show ¬ ((Slot.entry n).index = -1 ∨ (Slot.entry n).index = -2) by simp only [Slot.index]; omega)]
          simp only [Slot.index]
          have e : ((((p + 40 + slots.length * indexBytes slots.length : Nat) : Int) + (n : Int) * 24) % (W64 : Int)).toNat =
              p + 40 + slots.length * indexBytes slots.length + n * 24 := by
            generalize slots.length * indexBytes slots.length = q at *
            unfold W64
            omega
          rw [e, hl1, Script.bind_lift, field_at hl2 he3 (by omega), Script.bind_lift]
          have ev : (if values ≠ 0 then readPtr mem (((values : Int) + (n : Int) * 8) % (W64 : Int)).toNat else field l 16 8) = .ok (pick n) := by
            by_cases hv : values = 0
            · rw [if_pos hv] at hpk
              rw [if_neg (by simp [hv]), hpk]
              exact field_at hl2 he4 (by omega)
            · rw [if_neg hv] at hpk
              rw [if_pos hv, show (((values : Int) + (n : Int) * 8) % (W64 : Int)).toNat = values + n * 8 by unfold W64; omega]
              exact readPtr_at hpk.2
          rw [ev, Script.bind_lift, ih]
          simp [slotEntries, pairActs, say]

theorem ixSize_eq (n : Nat) : ixSize n = indexBytes n := by
  unfold ixSize indexBytes
  by_cases h1 : n ≤ 255
  · rw [if_pos (by omega), if_pos h1]
  · rw [if_neg (by omega), if_neg h1]
    by_cases h2 : n ≤ 65535
    · rw [if_pos (by omega), if_pos h2]
    · rw [if_neg (by omega), if_neg h2]
      by_cases h3 : n ≤ 4294967295
      · rw [if_pos (by omega), if_pos h3]
      · rw [if_neg (by omega), if_neg h3]

theorem dict3Script_cut {cfg : Config} {mem : Mem} {a n used : Nat} {d : Int} {buf : List Byte} (hb : bytesAt mem a n = some buf) (hn : 48 ≤ n) (hu : NumAt mem (a + 16) 8 used)
    (hu0 : used ≠ 0) (hd : cfg.maxdepth < d) : dict3Script cfg mem buf d = ⟨[.say "{ ... }".toList], .ok 0⟩ := by
  unfold dict3Script
  rw [field_at hb hu (by omega), Script.bind_lift, if_neg hu0, if_pos hd]
  simp [say]

theorem dict3Script_empty {cfg : Config} {mem : Mem} {a n : Nat} {d : Int} {buf : List Byte} (hb : bytesAt mem a n = some buf) (hn : 48 ≤ n) (hu : NumAt mem (a + 16) 8 0) :
    dict3Script cfg mem buf d = ⟨[.say "{}".toList], .ok 0⟩ := by
  unfold dict3Script
  rw [field_at hb hu (by omega), Script.bind_lift, if_pos rfl]
  simp [say]

theorem dict3Script_at {cfg : Config} {mem : Mem} {a n used p values : Nat} {d : Int} {buf : List Byte} {slots : List Slot} {key value pick : Nat → Nat}
    (hb : bytesAt mem a n = some buf) (hn : 48 ≤ n) (hu : NumAt mem (a + 16) 8 used) (hu0 : used ≠ 0) (hd : ¬ cfg.maxdepth < d) (hp : NumAt mem (a + 32) 8 p)
    (hv : NumAt mem (a + 40) 8 values) (hk : KeysAt mem p slots key value)
    (hpick : ∀ n ∈ slotEntries slots, if values = 0 then pick n = value n else values + n * 8 < 2 ^ 64 ∧ NumAt mem (values + n * 8) 8 (pick n)) :
    dict3Script cfg mem buf d = ⟨.say "{\n".toList :: .deeper :: (pairActs ((slotEntries slots).map fun n => (key n, pick n)) ++ [.shallower, .indent, .say "}".toList]), .ok 0⟩ := by
  obtain ⟨l, hl1, hl2⟩ := readObj_present hk.present
  obtain ⟨x, hx1, hx2⟩ := intField_at (by omega) hl2 hk.size (by omega)
  have hf := hk.fits
  have e : (((p : Int) + 40 + (slots.length : Int) * (indexBytes slots.length : Nat)) % (W64 : Int)).toNat = p + 40 + slots.length * indexBytes slots.length := by
    have : ((slots.length : Int) * (indexBytes slots.length : Nat)) = ((slots.length * indexBytes slots.length : Nat) : Int) := by simp
    rw [this]
    generalize slots.length * indexBytes slots.length = q at *
    unfold W64
    omega
  unfold dict3Script
  rw [field_at hb hu (by omega), Script.bind_lift, if_neg hu0, if_neg hd, field_at hb hp (by omega), Script.bind_lift, field_at hb hv (by omega), Script.bind_lift,
    hl1, Script.bind_lift, hx1, Script.bind_lift]
  simp only [hx2, ixSize_eq, e, say, Script.bind_act, Int.toNat_natCast]
  rw [dictLoop_at hk hpick slots 0 rfl]
  simp

end Pstack.Python
