import Verif.Proof.PythonShow
/-
Scripts of dictionaries of Python 2, of arguments and of variables.
-/
namespace Pstack.Python
open Pstack.Spec

theorem pyString_at {cfg : Config} {mem : Mem} {a : Nat} {s : List Byte} (h : StrAt cfg mem a s) : pyString cfg mem a = .ok (textOf s) := by
  obtain ⟨ha, h⟩ := h
  unfold pyString
  by_cases h2 : cfg.two = true
  · rw [if_pos h2] at h ⊢
    rw [Nat.mod_eq_of_lt (by unfold W64; omega), readString_at h]
  · rw [if_neg h2] at h ⊢
    obtain ⟨hp, hs, st, hst, h5, h6, h7⟩ := h
    obtain ⟨l, hl1, hl2⟩ := readObj_present hp
    rw [hl1, Res.bind_ok, field_at hl2 hst (by omega), Res.bind_ok, h5, h6, h7]
    simp only [Bool.and_self, if_true]
    rw [Nat.mod_eq_of_lt (by unfold W64; omega), readString_at hs]
    rfl

theorem dict2Loop_at {mem : Mem} {p : Nat} {slots : List (Option (Nat × Nat))} (hp : p + 24 * slots.length ≤ 2 ^ 64) (hpres : Present mem p (24 * slots.length))
    (h : ∀ i (hi : i < slots.length),
      match slots[i] with
      | some (k, v) => k ≠ 0 ∧ v ≠ 0 ∧ NumAt mem (p + 24 * i + 8) 8 k ∧ NumAt mem (p + 24 * i + 16) 8 v
      | none => NumAt mem (p + 24 * i + 16) 8 0) :
    ∀ (n i : Nat), i + n ≤ slots.length → dict2Loop mem p n i = ⟨pairActs (((slots.drop i).take n).filterMap id), .ok ()⟩
  | 0, i, _ => by simp [dict2Loop, pairActs]
  | n + 1, i, hn => by
      have hi : i < slots.length := by omega
      have ih := dict2Loop_at hp hpres h n (i + 1) (by omega)
      have hq : Present mem (p + 24 * i) 24 := by
        intro j hj
        have := hpres (24 * i + j) (by omega)
        rwa [← Nat.add_assoc] at this
      obtain ⟨l, hl1, hl2⟩ := readObj_present hq
      have hs := h i hi
      have hk : ∃ k, field l 8 8 = .ok k := ⟨num ((l.drop 8).take 8), by unfold field; rw [if_pos (by rw [bytesAt_length hl2]; omega)]⟩
      obtain ⟨k', hk'⟩ := hk
      unfold dict2Loop
      rw [show i * 24 = 24 * i by omega, Nat.mod_eq_of_lt (by unfold W64; omega), hl1, Script.bind_lift, hk', Script.bind_lift]
      rw [List.drop_eq_getElem_cons hi, List.take_succ_cons]
      cases hsl : slots[i] with
      | none =>
          rw [hsl] at hs
          dsimp only at hs
          rw [field_at hl2 hs (by omega), Script.bind_lift, if_pos rfl, ih]
          simp
      | some kv =>
          obtain ⟨k, v⟩ := kv
          rw [hsl] at hs
          dsimp only at hs
          have : k' = k := by
            have := field_at hl2 hs.2.2.1 (by omega)
            rw [hk'] at this
            exact Res.ok.inj this
          subst this
          rw [field_at hl2 hs.2.2.2 (by omega), Script.bind_lift, if_neg hs.2.1, if_pos hs.1, ih]
          simp [pairActs, say]

theorem dict2Script_at {cfg : Config} {mem : Mem} {a n used p : Nat} {slots : List (Option (Nat × Nat))} {d : Int} {buf : List Byte} (hb : bytesAt mem a n = some buf) (hsz : 48 ≤ n)
    (hu : NumAt mem (a + 24) 8 used) (hu0 : used ≠ 0) (hd : ¬ cfg.maxdepth < d) (hmask : IntAt mem (a + 32) 8 (slots.length - 1)) (hne : slots ≠ [])
    (hp : NumAt mem (a + 40) 8 p) (hfit : p + 24 * slots.length ≤ 2 ^ 64) (hpres : Present mem p (24 * slots.length))
    (hsl : ∀ i (hi : i < slots.length),
      match slots[i] with
      | some (k, v) => k ≠ 0 ∧ v ≠ 0 ∧ NumAt mem (p + 24 * i + 8) 8 k ∧ NumAt mem (p + 24 * i + 16) 8 v
      | none => NumAt mem (p + 24 * i + 16) 8 0) :
    dict2Script cfg mem buf d = ⟨.say "{\n".toList :: .deeper :: (pairActs (slots.dropLast.filterMap id) ++ [.shallower, .indent, .say "}".toList]), .ok 0⟩ := by
  obtain ⟨x, hx1, hx2⟩ := intField_at (by omega) hb hmask (by omega)
  have hpos : 0 < slots.length := List.length_pos_iff.2 hne
  unfold dict2Script
  rw [field_at hb hu (by omega), Script.bind_lift, if_neg hu0, if_neg hd, hx1, Script.bind_lift, field_at hb hp (by omega), Script.bind_lift, hx2,
    show ((slots.length : Int) - 1).toNat = slots.length - 1 by omega, dict2Loop_at hfit hpres hsl (slots.length - 1) 0 (by omega)]
  simp [say, List.dropLast_eq_take]

theorem dict2Script_cut {cfg : Config} {mem : Mem} {a n used : Nat} {d : Int} {buf : List Byte} (hb : bytesAt mem a n = some buf) (hn : 48 ≤ n) (hu : NumAt mem (a + 24) 8 used)
    (hu0 : used ≠ 0) (hd : cfg.maxdepth < d) : dict2Script cfg mem buf d = ⟨[.say "{ ... }".toList], .ok 0⟩ := by
  unfold dict2Script
  rw [field_at hb hu (by omega), Script.bind_lift, if_neg hu0, if_pos hd]
  simp [say]

theorem dict2Script_empty {cfg : Config} {mem : Mem} {a n : Nat} {d : Int} {buf : List Byte} (hb : bytesAt mem a n = some buf) (hn : 48 ≤ n) (hu : NumAt mem (a + 24) 8 0) :
    dict2Script cfg mem buf d = ⟨[.say "{}".toList], .ok 0⟩ := by
  unfold dict2Script
  rw [field_at hb hu (by omega), Script.bind_lift, if_pos rfl]
  simp [say]

/-! ### Arguments -/

def pieceAct : PyPiece → Act
  | .text t => .say t
  | .line => .indent
  | .obj a => .obj a

theorem argsLoop_eq {total : Int} {more : Bool} {k : Nat} (hm : more = decide (0 < k)) : ∀ (l : List Nat) (i : Int), total = i + l.length + k →
    argsLoop total l i = ⟨(posPieces more l).map pieceAct, .ok ()⟩
  | [], i, _ => rfl
  | [a], i, h => by
      simp only [List.length_cons, List.length_nil] at h
      unfold argsLoop posPieces
      by_cases hk : 0 < k
      · rw [if_pos (by omega), hm, decide_eq_true hk]
        simp [argsLoop, say, pieceAct]
      · rw [if_neg (by omega), hm, decide_eq_false hk]
        simp [argsLoop, pieceAct]
  | a :: b :: l, i, h => by
      simp only [List.length_cons] at h
      have ih := argsLoop_eq (total := total) hm (b :: l) (i + 1) (by simp only [List.length_cons]; omega)
      unfold argsLoop
      rw [if_pos (by omega), ih]
      simp [say, posPieces, pieceAct]

theorem moreArgs_eq : ∀ l : List Nat, moreArgs l = ⟨(l.flatMap fun a => [PyPiece.text ", ".toList, .obj a]).map pieceAct, .ok ()⟩
  | [] => rfl
  | a :: l => by
      unfold moreArgs
      rw [moreArgs_eq l]
      simp [say, pieceAct]

theorem kwLoop_eq {cfg : Config} {mem : Mem} : ∀ (ks : List (List Byte × Nat)) (ns : List Nat), ns.length = ks.length → (∀ i (h : i < ks.length) (h' : i < ns.length), StrAt cfg mem ns[i] ks[i].1) →
    kwLoop cfg mem ns (ks.map (·.2)) = ⟨(ks.flatMap namedPieces).map pieceAct, .ok ()⟩
  | [], [], _, _ => rfl
  | k :: ks, n :: ns, hl, h => by
      have ih := kwLoop_eq ks ns (by simpa using hl) (fun i h1 h2 => by
        have := h (i + 1) (by simp; omega) (by simp; omega)
        simpa using this)
      have h0 := h 0 (by simp) (by simp)
      simp only [List.getElem_cons_zero] at h0
      simp only [List.map_cons, kwLoop]
      rw [pyString_at h0, Script.bind_lift, ih]
      simp [say, sayText, pieceAct, namedPieces]
  | [], _ :: _, hl, _ => by simp at hl
  | _ :: _, [], hl, _ => by simp at hl

theorem exists_list {P : Nat → Nat → Prop} : ∀ n : Nat, (∀ i, i < n → ∃ x, P i x) → ∃ l : List Nat, l.length = n ∧ ∀ i (h : i < l.length), P i l[i]
  | 0, _ => ⟨[], rfl, fun i h => by simp at h⟩
  | n + 1, h => by
      obtain ⟨l, hl, hp⟩ := exists_list n (fun i hi => h i (by omega))
      obtain ⟨x, hx⟩ := h n (by omega)
      refine ⟨l ++ [x], by simp [hl], fun i hi => ?_⟩
      by_cases hi' : i < l.length
      · rw [List.getElem_append_left hi']; exact hp i hi'
      · simp only [List.length_append, List.length_singleton] at hi
        have : i = l.length := by omega
        subst this
        rw [List.getElem_append_right (Nat.le_refl _)]
        simp only [Nat.sub_self, List.getElem_cons_zero]
        rw [hl]; exact hx

theorem slot_eq {b i : Nat} (h : b + 8 * i < 2 ^ 64) : slot b (i : Int) = b + 8 * i := by
  unfold slot
  rw [show ((b : Int) + (i : Int) * 8) = ((b + 8 * i : Nat) : Int) by omega]
  unfold W64
  omega

theorem argsScript_at {cfg : Config} {mem : Mem} {a c : Nat} {x : CallArgs} {code : List Byte} (h : ArgsAt cfg mem a c x) (hb : bytesAt mem c cfg.lay.codeSize = some code) :
    argsScript cfg mem code a = ⟨(argPieces x).map pieceAct, .ok ()⟩ := by
  obtain ⟨flags, hf, hf2, hf3⟩ := h.flags
  obtain ⟨vn, hvn, hvfit, hkw, hstar, hdstar⟩ := h.names
  obtain ⟨s1, s2, s3, s4⟩ := h.sizes
  obtain ⟨y1, hy1, hy1'⟩ := intField_at (by omega) hb h.argcount s2
  have hkc : ∃ y, (if cfg.two then (.ok 0 : Res Nat) else field code cfg.lay.co_kwonlyargcount 4) = .ok y ∧ signed 4 y = x.kwonly.length := by
    have := h.kwonlycount
    by_cases h2 : cfg.two = true
    · rw [if_pos h2] at this ⊢
      exact ⟨0, rfl, by rw [this]; decide⟩
    · rw [if_neg h2] at this ⊢
      exact intField_at (by omega) hb this s3
  obtain ⟨y2, hy2, hy2'⟩ := hkc
  have hfl := h.fitsLocals
  have hstarS : starScript mem x.star.isSome (vn + 24) (a + cfg.lay.f_localsplus) ((x.pos.length : Int) + x.kwonly.length) =
      ⟨(starPieces x.star).map pieceAct, .ok ()⟩ := by
    cases hs : x.star with
    | none => rfl
    | some nl =>
        obtain ⟨n, l⟩ := nl
        obtain ⟨h1, h2, t, h3, h4, h5, h6, h7⟩ := hstar n l hs
        obtain ⟨b, hb1, hb2⟩ := readObj_present h5
        obtain ⟨z, hz, hz'⟩ := intField_at (by omega) hb2 h6 (by omega)
        unfold starScript
        simp only [Option.isSome_some, if_true]
        rw [show ((x.pos.length : Int) + x.kwonly.length) = ((x.pos.length + x.kwonly.length : Nat) : Int) by omega, slot_eq (by omega), slot_eq (by omega),
          readPtr_at h1, Script.bind_lift, readPtr_at h3, Script.bind_act, Script.bind_lift, hb1, Script.bind_lift, hz, Script.bind_lift, hz', if_pos (by omega),
          Nat.mod_eq_of_lt (by unfold W64; omega), Int.toNat_natCast, readPtrs_at h7, Script.bind_lift, moreArgs_eq]
        simp [pieceAct, starPieces]
  have hkwS : kwScript cfg mem (vn + 24) (a + cfg.lay.f_localsplus) (x.pos.length : Int) (x.kwonly.length : Int) =
      ⟨(x.kwonly.flatMap namedPieces).map pieceAct, .ok ()⟩ := by
    unfold kwScript
    by_cases h0 : x.kwonly.length = 0
    · rw [if_neg (by omega), List.eq_nil_of_length_eq_zero h0]; rfl
    · have hfew := h.few
      obtain ⟨ns, hns, hP⟩ := exists_list (P := fun i n => ∀ hi : i < x.kwonly.length, NumAt mem (vn + 24 + 8 * (x.pos.length + i)) 8 n ∧ StrAt cfg mem n x.kwonly[i].1 ∧
          NumAt mem (a + cfg.lay.f_localsplus + 8 * (x.pos.length + i)) 8 x.kwonly[i].2) x.kwonly.length (fun i hi => by
        obtain ⟨n, hn⟩ := hkw i hi
        exact ⟨n, fun _ => hn⟩)
      have hp1 : PtrsAt mem (vn + 24 + 8 * x.pos.length) ns := fun i hi => by
        have := (hP i hi (by omega)).1
        rwa [show vn + 24 + 8 * x.pos.length + 8 * i = vn + 24 + 8 * (x.pos.length + i) by omega]
      have hp2 : PtrsAt mem (a + cfg.lay.f_localsplus + 8 * x.pos.length) (x.kwonly.map (·.2)) := fun i hi => by
        rw [List.length_map] at hi
        have := (hP i (by omega) hi).2.2
        rw [List.getElem_map, show a + cfg.lay.f_localsplus + 8 * x.pos.length + 8 * i = a + cfg.lay.f_localsplus + 8 * (x.pos.length + i) by omega]
        exact this
      have e1 := readPtrs_at hp1
      have e2 := readPtrs_at hp2
      rw [hns] at e1
      rw [List.length_map] at e2
      rw [if_pos (by omega), slot_eq (by omega), slot_eq (by omega), Int.toNat_natCast, e1, Script.bind_lift, e2, Script.bind_lift]
      exact kwLoop_eq x.kwonly ns hns (fun i h1 h2 => (hP i h2 h1).2.1)
  have hdS : dstarScript cfg mem x.dstar.isSome (vn + 24) (a + cfg.lay.f_localsplus) ((x.pos.length : Int) + x.kwonly.length + (if x.star.isSome = true then 1 else 0)) =
      ⟨(x.dstar.toList.flatMap namedPieces).map pieceAct, .ok ()⟩ := by
    cases hs : x.dstar with
    | none => rfl
    | some sv =>
        obtain ⟨s, v⟩ := sv
        have h1 := hdstar s v hs
        dsimp only at h1
        obtain ⟨n, h1, h2, h3⟩ := h1
        have e : ((x.pos.length : Int) + x.kwonly.length + (if x.star.isSome = true then 1 else 0)) = ((x.pos.length + x.kwonly.length + (if x.star.isSome then 1 else 0) : Nat) : Int) := by
          split <;> omega
        have hle : (if x.star.isSome then 1 else 0) ≤ 1 := by split <;> omega
        unfold dstarScript
        simp only [Option.isSome_some, if_true]
        rw [e, slot_eq (by omega), slot_eq (by omega), readPtr_at h1, readPtr_at h3]
        simp [say, sayText, pyString_at h2, pieceAct, act, namedPieces]
  have hargs := argsLoop_eq (total := (x.pos.length : Int) + x.kwonly.length + (if x.star.isSome = true then 1 else 0) + (if x.dstar.isSome = true then 1 else 0))
    (more := decide (x.kwonly ≠ [] ∨ x.star.isSome = true ∨ x.dstar.isSome = true))
    (k := x.kwonly.length + (if x.star.isSome then 1 else 0) + (if x.dstar.isSome then 1 else 0)) (by
      cases hk : x.kwonly <;> cases x.star <;> cases x.dstar <;> simp) x.pos 0 (by
      cases x.star <;> cases x.dstar <;> simp <;> omega)
  have hpos := readPtrs_at h.pos
  unfold argsScript
  rw [field_at hb hf s1, Script.bind_lift, hy1, Script.bind_lift, hy2, Script.bind_lift, field_at hb hvn s4, Script.bind_lift]
  simp only [hy1', hy2', hf2, hf3]
  rw [if_neg (by omega), Nat.mod_eq_of_lt (show vn + 24 < W64 by unfold W64; omega), Nat.mod_eq_of_lt (show a + cfg.lay.f_localsplus < W64 by unfold W64; omega), Int.toNat_natCast,
    hpos, Script.bind_lift, hargs, hstarS, hkwS, hdS]
  simp [say, argPieces, pieceAct, act]

/-! ### Variables -/

def varActs : List (Nat × Nat) → List Act
  | [] => []
  | (n, v) :: l => .indent :: .obj n :: .say "=".toList :: .obj v :: .say "\n".toList :: varActs l

def sectionActs : List (Text × List (Nat × Nat)) → List Act
  | [] => []
  | (_, []) :: r => sectionActs r
  | (name, v :: l) :: r => .indent :: .say name :: .say ":\n".toList :: .deeper :: (varActs (v :: l) ++ [.shallower] ++ sectionActs r)

theorem varsLoop_eq : ∀ l : List (Nat × Nat), varsLoop (l.map (·.1)) (l.map (·.2)) = ⟨varActs l, .ok ()⟩
  | [] => rfl
  | (n, v) :: l => by
      simp only [List.map_cons, varsLoop]
      rw [varsLoop_eq l]
      simp [say, varActs]

theorem tupleVars_at {mem : Mem} {p v : Nat} {l : List (Nat × Nat)} {name : String} {maxvals : Int} (h : NamesAt mem p (l.map (·.1))) (hv : PtrsAt mem v (l.map (·.2)))
    (hm : (l.length : Int) ≤ maxvals) : tupleVars mem p v name maxvals = ⟨sectionActs [(name.toList, l)], .ok (l.length : Int)⟩ := by
  obtain ⟨h1, h2, h3, h4⟩ := h
  obtain ⟨b, hb1, hb2⟩ := readObj_present h2
  obtain ⟨z, hz, hz'⟩ := intField_at (by omega) hb2 h3 (by omega)
  rw [List.length_map] at hz'
  unfold tupleVars
  rw [hb1, Script.bind_lift, hz, Script.bind_lift]
  simp only [hz']
  rw [show min (l.length : Int) maxvals = l.length by omega]
  cases l with
  | nil => rfl
  | cons x l =>
      have e1 := readPtrs_at h4
      have e2 := readPtrs_at hv
      rw [List.length_map] at e1 e2
      rw [if_neg (by simp; omega), if_neg (by omega), Int.toNat_natCast, Nat.mod_eq_of_lt (by unfold W64; omega), e1, Script.bind_lift, e2, Script.bind_lift, varsLoop_eq]
      simp [say, sectionActs]

theorem ptrsAt_append {mem : Mem} {a : Nat} {l l' : List Nat} (h : PtrsAt mem a (l ++ l')) : PtrsAt mem a l ∧ PtrsAt mem (a + 8 * l.length) l' := by
  refine ⟨fun i hi => ?_, fun i hi => ?_⟩
  · have := h i (by simp; omega)
    rwa [List.getElem_append_left hi] at this
  · have := h (l.length + i) (by simp; omega)
    rw [List.getElem_append_right (by omega)] at this
    simp only [Nat.add_sub_cancel_left] at this
    rwa [show a + 8 * l.length + 8 * i = a + 8 * (l.length + i) by omega]

theorem sectionActs_cons (x : Text × List (Nat × Nat)) (r : List (Text × List (Nat × Nat))) : sectionActs (x :: r) = sectionActs [x] ++ sectionActs r := by
  obtain ⟨name, l⟩ := x
  cases l <;> simp [sectionActs]

theorem localsScript_at {cfg : Config} {mem : Mem} {a c : Nat} {x : LocalVars} {code : List Byte} (h : VarsAt cfg mem a c x) (hb : bytesAt mem c cfg.lay.codeSize = some code) :
    localsScript cfg mem code a = ⟨.deeper :: (sectionActs (varSections x) ++ [.shallower]), .ok ()⟩ := by
  obtain ⟨s1, s2, s3, s4⟩ := h.sizes
  obtain ⟨y, hy, hy'⟩ := intField_at (by omega) hb h.nlocals s1
  obtain ⟨vn, hvn, hv⟩ := h.fast
  obtain ⟨cv, hcv, hc⟩ := h.cells
  obtain ⟨fv, hfv, hf⟩ := h.free
  have hfit := h.fits
  obtain ⟨p12, p3⟩ := ptrsAt_append h.values
  obtain ⟨p1, p2⟩ := ptrsAt_append p12
  rw [List.length_append, List.length_map, List.length_map] at p3
  rw [List.length_map] at p2
  unfold localsScript
  rw [hy, Script.bind_lift, field_at hb hvn s2, Script.bind_lift, field_at hb hcv s3, Script.bind_lift, field_at hb hfv s4, Script.bind_lift]
  simp only [hy']
  have e1 : (a + cfg.lay.f_localsplus) % W64 = a + cfg.lay.f_localsplus := Nat.mod_eq_of_lt (by unfold W64; omega)
  have e2 : (((a + cfg.lay.f_localsplus : Nat) : Int) + (x.fast.length : Int) * 8) % (W64 : Int) = ((a + cfg.lay.f_localsplus + 8 * x.fast.length : Nat) : Int) := by unfold W64; omega
  have e3 : (((a + cfg.lay.f_localsplus + 8 * x.fast.length : Nat) : Int) + (x.cells.length : Int) * 8) % (W64 : Int) =
      ((a + cfg.lay.f_localsplus + 8 * (x.fast.length + x.cells.length) : Nat) : Int) := by unfold W64; omega
  rw [e1, tupleVars_at hv p1 (Int.le_refl _), e2, Int.toNat_natCast, tupleVars_at hc p2 (by have := h.few; omega)]
  simp only [Script.bind_act, Script.bind_ok]
  rw [e3, Int.toNat_natCast, tupleVars_at hf p3 (by have := h.few; omega)]
  simp only [Script.bind_ok, varSections]
  rw [sectionActs_cons _ [_, _], sectionActs_cons _ [_]]
  simp [act]

theorem codeScript_at {cfg : Config} {mem : Mem} {a c : Nat} {f : Frame} {code buf : List Byte} {lasti first : Int} {table n fi x1 : Nat} {steps : List LineStep} {sz : Nat}
    (hb : bytesAt mem a sz = some buf) (hx1 : field buf cfg.lay.f_lasti 4 = .ok x1) (hx1' : signed 4 x1 = lasti) (hcode : readObj mem c cfg.lay.codeSize = .ok code)
    (hcode' : bytesAt mem c cfg.lay.codeSize = some code) (hfirst : IntAt mem (c + cfg.lay.co_firstlineno) 4 first) (s1 : cfg.lay.co_firstlineno + 4 ≤ cfg.lay.codeSize)
    (htable : NumAt mem (c + cfg.lay.co_lnotab) 8 table) (s2 : cfg.lay.co_lnotab + 8 ≤ cfg.lay.codeSize) (hn : NumAt mem (c + cfg.lay.co_name) 8 n) (s3 : cfg.lay.co_name + 8 ≤ cfg.lay.codeSize)
    (hf : NumAt mem (c + cfg.lay.co_filename) 8 fi) (s4 : cfg.lay.co_filename + 8 ≤ cfg.lay.codeSize) (hlines : LinesAt cfg mem table steps) (hsteps : StepsOk cfg.two 0 first steps)
    (hline : f.line = lineAt lasti 0 first steps) (hfunc : StrAt cfg mem n f.func) (hfile : StrAt cfg mem fi f.file)
    (hargs : cfg.doargs = true → ArgsAt cfg mem a c f.args) (hvars : cfg.dolocals = true → VarsAt cfg mem a c f.vars) :
    codeScript cfg mem buf c a = ⟨(framePieces cfg.doargs f).map pieceAct ++ (if cfg.dolocals then .deeper :: (sectionActs (varSections f.vars) ++ [.shallower]) else []), .ok ()⟩ := by
  obtain ⟨x2, hx2, hx2'⟩ := intField_at (by omega) hcode' hfirst s1
  unfold codeScript
  rw [hx1, Script.bind_lift, hcode, Script.bind_lift, hx2, Script.bind_lift, field_at hcode' htable s2, Script.bind_lift, hx1', hx2', getLine_at hlines hsteps, Script.bind_lift,
    field_at hcode' hn s3, Script.bind_lift, pyString_at hfunc, Script.bind_lift, field_at hcode' hf s4, Script.bind_lift, pyString_at hfile, Script.bind_lift]
  cases ha : cfg.doargs <;> cases hl : cfg.dolocals
  · simp [say, sayText, dec, hline, framePieces, pieceAct]
  · rw [localsScript_at (hvars hl) hcode']
    simp [say, sayText, dec, hline, framePieces, pieceAct]
  · rw [argsScript_at (hargs ha) hcode']
    simp [say, sayText, dec, hline, framePieces, pieceAct]
  · rw [argsScript_at (hargs ha) hcode', localsScript_at (hvars hl) hcode']
    simp [say, sayText, dec, hline, framePieces, pieceAct]

theorem fullFrameScript {cfg : Config} {mem : Mem} {a t : Nat} {f : Frame} {ty : TypeObj} {size : Int} (h : FullFrameAt cfg mem a f) {buf : List Byte} (hobj : ObjAt cfg mem a t ty size)
    (hsz : cfg.lay.f_back + 8 ≤ objBytes ty size ∧ cfg.lay.f_code + 8 ≤ objBytes ty size ∧ cfg.lay.f_locals + 8 ≤ objBytes ty size ∧ cfg.lay.f_lasti + 4 ≤ objBytes ty size)
    (hb : bytesAt mem a (objBytes ty size) = some buf) :
    frameScript cfg mem buf a = ⟨(framePieces cfg.doargs f).map pieceAct ++ (if cfg.dolocals then .deeper :: (sectionActs (varSections f.vars) ++ [.shallower]) else []) ++
      (if cfg.dolocals = true ∧ f.locals ≠ 0 then [.deeper, .indent, .say "locals:\n".toList, .obj f.locals, .shallower] else []), .ok f.back⟩ := by
  obtain ⟨c, steps, lasti, first, table, n, fi, hc0, hc, hlasti, hcp, s1, s2, s3, s4, hfirst, htable, hn, hf, hlines, hsteps, hline, hfunc, hfile⟩ := h.frame.code
  obtain ⟨l, hl1, hl2⟩ := readObj_present hcp
  obtain ⟨x1, hx1, hx1'⟩ := intField_at (by omega) hb hlasti hsz.2.2.2
  have hcs := codeScript_at (f := f) hb hx1 hx1' hl1 hl2 hfirst s1 htable s2 hn s3 hf s4 hlines hsteps hline hfunc hfile (fun ha => h.args ha c hc) (fun hl => h.vars hl c hc)
  unfold frameScript
  rw [field_at hb hc hsz.2.1, Script.bind_lift, field_at hb h.locals hsz.2.2.1, Script.bind_lift, field_at hb h.frame.back hsz.1, Script.bind_lift, if_pos hc0, hcs]
  by_cases hcond : cfg.dolocals = true ∧ f.locals ≠ 0
  · rw [if_pos hcond, if_pos hcond]
    simp [say]
  · rw [if_neg hcond, if_neg hcond]
    simp

end Pstack.Python
