import Verif.Proof.DieName
import Verif.Proof.Python
import Verif.Spec.Args
import Verif.Model.Args
/-
The values of arguments.
-/
namespace Pstack.Props
open Pstack.Reader Pstack.Spec Pstack.Dwarf Pstack.Die Pstack.Args
open Pstack.Python (num)

local notation "Mem" => Python.Mem

/-! ### Bytes and numbers -/

theorem num_leBytes : ∀ (w n : Nat), n < 256 ^ w → num (leBytes w n) = n
  | 0, n, h => by have : n = 0 := by simpa using h
                  subst this; rfl
  | w + 1, n, h => by
      have hd : n / 256 < 256 ^ w := Nat.div_lt_of_lt_mul (by rw [Nat.pow_succ, Nat.mul_comm] at h; exact h)
      show (BitVec.ofNat 8 (n % 256)).toNat + 256 * num (leBytes w (n / 256)) = n
      rw [num_leBytes w _ hd, BitVec.toNat_ofNat]
      omega

theorem leWord_eq (w : Nat) (v : BitVec 64) : leWord w v = leBytes w v.toNat := by
  have key : ∀ (w n : Nat), (List.range w).map (fun i => BitVec.ofNat 8 (n / 256 ^ i)) = leBytes w n := by
    intro w
    induction w with
    | zero => intro n; rfl
    | succ w ih =>
      intro n
      rw [List.range_succ_eq_map, List.map_cons, List.map_map]
      show _ = BitVec.ofNat 8 (n % 256) :: leBytes w (n / 256)
      rw [← ih (n / 256)]
      congr 1
      · apply BitVec.eq_of_toNat_eq
        rw [BitVec.toNat_ofNat, BitVec.toNat_ofNat]; simp
      · apply List.map_congr_left
        intro i _
        simp only [Function.comp_apply]
        rw [Nat.pow_succ, Nat.mul_comm, Nat.div_div_eq_div_mul]
  exact key w v.toNat

theorem readBuf_length (mem : Mem) : ∀ (n a : Nat), (readBuf mem a n).length = n
  | 0, _ => rfl
  | n + 1, a => by
      rw [readBuf]
      cases mem a with
      | none => simp
      | some b => simp [readBuf_length mem n (a + 1)]

theorem readBuf_stored (mem : Mem) : ∀ (bs : List Byte) (a : Nat), StoredAt mem a bs → readBuf mem a bs.length = bs
  | [], _, _ => rfl
  | b :: bs, a, h => by
      have h0 := h 0 (by simp)
      simp only [Nat.add_zero, List.getElem_cons_zero] at h0
      have ih := readBuf_stored mem bs (a + 1) (fun i hi => by
        have := h (i + 1) (by simp; omega)
        rw [show a + (i + 1) = a + 1 + i by omega] at this
        simpa using this)
      show readBuf mem a (bs.length + 1) = _
      rw [readBuf, h0]
      simp only [ih]

theorem strBytes_at {mem : Mem} : ∀ (s : List Byte) (n a : Nat), (∀ i (h : i < s.length), mem (a + i) = some s[i]) → (∀ b ∈ s, b ≠ 0) → mem (a + s.length) = some 0 → s.length < n →
    strBytes mem n a = s
  | [], n, a, _, _, h3, h4 => by
      obtain ⟨m, rfl⟩ : ∃ m, n = m + 1 := ⟨n - 1, by simp at h4; omega⟩
      rw [strBytes]
      rw [show a + ([] : List Byte).length = a from rfl] at h3
      rw [h3]
      rfl
  | b :: s, n, a, h1, h2, h3, h4 => by
      obtain ⟨m, rfl⟩ : ∃ m, n = m + 1 := ⟨n - 1, by simp at h4; omega⟩
      have h0 := h1 0 (by simp)
      simp only [Nat.add_zero, List.getElem_cons_zero] at h0
      rw [strBytes, h0]
      simp only
      rw [if_neg (h2 b (by simp)), strBytes_at s m (a + 1) (fun i hi => by
        have := h1 (i + 1) (by simp; omega)
        rw [show a + (i + 1) = a + 1 + i by omega] at this
        simpa using this) (fun c hc => h2 c (by simp [hc])) (by rw [show a + 1 + s.length = a + (b :: s).length by simp; omega]; exact h3) (by simp at h4; omega)]

theorem readStr_at {mem : Mem} {a : Nat} {s : List Byte} (h : CStrAt mem a s) : readStr mem a = s := by
  unfold readStr
  rw [if_neg h.notNull]
  exact strBytes_at s _ a h.bytes h.noZero h.zero (by have := h.fits; unfold W64; omega)

theorem all_zero_leBytes (w n : Nat) (h : n < 256 ^ w) : (leBytes w n).all (· == 0#8) = decide (n = 0) := by
  induction w generalizing n with
  | zero => have : n = 0 := by simpa using h
            subst this; rfl
  | succ w ih =>
    have hd : n / 256 < 256 ^ w := Nat.div_lt_of_lt_mul (by rw [Nat.pow_succ, Nat.mul_comm] at h; exact h)
    show ((BitVec.ofNat 8 (n % 256) == 0#8) && (leBytes w (n / 256)).all (· == 0#8)) = _
    rw [ih _ hd]
    have e1 : (BitVec.ofNat 8 (n % 256) == 0#8) = decide (n % 256 = 0) := by
      by_cases h0 : n % 256 = 0
      · rw [h0]; rfl
      · rw [decide_eq_false h0]
        apply beq_false_of_ne
        intro hc
        have := congrArg BitVec.toNat hc
        rw [BitVec.toNat_ofNat] at this
        have h00 : (0#8 : BitVec 8).toNat = 0 := rfl
        rw [h00] at this
        omega
    rw [e1]
    by_cases h0 : n = 0
    · subst h0; rfl
    · rw [decide_eq_false h0]
      by_cases h1 : n % 256 = 0
      · rw [decide_eq_false (show ¬n / 256 = 0 by omega), Bool.and_false]
      · rw [decide_eq_false h1, Bool.false_and]

theorem toSigned_int {w : Nat} {z : Int} {bs : List Byte} (hw : 0 < w) (h : IntBytes w z bs) : toSigned bs = z ∧ bs.length = w := by
  obtain ⟨h1, h2, rfl⟩ := h
  have hl : (leBytes w (if 0 ≤ z then z else z + 2 ^ (8 * w)).toNat).length = w := leBytes_length _ _
  refine ⟨?_, hl⟩
  have e : (2 : Int) ^ (8 * w) = 2 * 2 ^ (8 * w - 1) := by
    rw [show 8 * w = (8 * w - 1) + 1 by omega, Int.pow_succ]; simp [Int.mul_comm]
  have ec : ((256 ^ w : Nat) : Int) = (2 : Int) ^ (8 * w) := by
    rw [show 256 = 2 ^ 8 by rfl, ← Nat.pow_mul]; simp
  have k1 : (if 0 ≤ z then z else z + 2 ^ (8 * w)).toNat < 256 ^ w := by
    generalize hA : (256 : Nat) ^ w = A at *
    generalize hB : (2 : Int) ^ (8 * w - 1) = B at *
    generalize hC : (2 : Int) ^ (8 * w) = C at *
    split <;> omega
  unfold toSigned
  rw [hl, num_leBytes _ _ k1]
  exact Python.signed_enc hw h1 h2

theorem integerText_num {bs : List Byte} (h : bs.length = 2 ∨ bs.length = 4 ∨ bs.length = 8) : integerText bs = Args.dec (toSigned bs) := by
  unfold integerText
  rcases h with h | h | h <;> rw [h] <;> rfl

theorem base_shown {enc : Nat} {bs t : List Byte} (h : BaseShows knowsSome enc bs t) (float : List Byte → List Byte) : baseText float enc bs = .ok t := by
  cases h with
  | @address n _ h =>
    obtain ⟨h1, rfl⟩ := h
    unfold baseText
    rw [if_neg (by intro hc; have := congrArg List.length hc; rw [leBytes_length] at this; cases this)]
    simp only
    rw [if_neg (by rw [leBytes_length]; decide), List.take_of_length_le (by rw [leBytes_length]; decide), num_leBytes _ _ h1]
    rfl
  | @boolean w n _ hw h =>
    obtain ⟨h1, rfl⟩ := h
    unfold baseText
    rw [if_neg (by intro hc; have := congrArg List.length hc; rw [leBytes_length] at this; simp at this; omega)]
    simp only
    rw [all_zero_leBytes _ _ h1]
    by_cases h0 : n = 0
    · rw [if_pos h0, if_pos (decide_eq_true h0)]; rfl
    · rw [if_neg h0, if_neg (by rw [decide_eq_false h0]; decide)]; rfl
  | @signed w z _ hw h =>
    obtain ⟨h1, h2⟩ := toSigned_int (by omega) h
    unfold baseText
    rw [if_neg (by intro hc; rw [hc] at h2; simp at h2; omega)]
    simp only
    rw [integerText_num (by omega), h1]
    rfl
  | @unsigned w n _ hw h hb =>
    obtain ⟨h1, rfl⟩ := h
    unfold baseText
    rw [if_neg (by intro hc; have := congrArg List.length hc; rw [leBytes_length] at this; simp at this; omega)]
    simp only
    rw [integerText_num (by rw [leBytes_length]; exact hw)]
    unfold toSigned Python.signed
    rw [leBytes_length, num_leBytes _ _ h1, if_pos (show n < 2 ^ (8 * w - 1) from hb)]
    rfl
  | signedChar => rfl
  | unsignedChar => rfl

/-! ### Entries -/

section
variable {d : Sections} {xs : List DieUnit} (hok : InfoOk d xs)

/-- A `DIE` is this entry. -/
def IsRef (d : Sections) (xs : List DieUnit) (s : IState) (y : DIE) (p : EntryRef) : Prop := GoodDie d xs s y p.uo p.x p.o p.e

/-- It is, or both are null. -/
def IsRefOpt (d : Sections) (xs : List DieUnit) (s : IState) : Option DIE → Option EntryRef → Prop
  | none, none => True
  | some y, some p => IsRef d xs s y p
  | _, _ => False

theorem IsRefOpt.ext {s s' : IState} {z : Option DIE} {r : Option EntryRef} (h : IsRefOpt d xs s z r) (he : IExt s s') : IsRefOpt d xs s' z r := by
  cases z <;> cases r
  · trivial
  · exact h
  · exact h
  · exact GoodDie.ext h he

include hok

theorem number_of (hfit : SectionsFit d) {p : EntryRef} {name n : Nat} (hn : name ≠ 0x3c ∧ name ≠ 0x31 ∧ name ≠ 0x47) (h : NumberOf d xs p name n) :
    ∃ m, ∀ fuel, m ≤ fuel → ∀ y s, ISt d xs s → IsRef d xs s y p →
      ∃ a w s1 s2, getAttr d fuel y name false s = .ok (some a, s1) ∧ toNum d fuel (some a) s1 = .ok (w, s2) ∧ w.toNat = n ∧ Kept d xs s s2 := by
  obtain ⟨uo, x, o, e, i, h1, a, v, q1, q2, q3⟩ := h
  obtain ⟨m, hm⟩ := getAttr_inherits hok (d := d) hn h1
  refine ⟨m + 1, fun fuel hf y s hs hg => ?_⟩
  obtain ⟨a', s1, g1, g2, g3, z, rfl, g4, _⟩ := hm fuel y p.x s (by omega) hs hg
  obtain ⟨w, s2, k1, k2, k3, _⟩ := toNum_spec hok hfit g2 g4 q1 q2 q3 (fuel := fuel) (by omega)
  exact ⟨_, w, s1, s2, g1, k1, k2, Kept.trans ⟨g2, g3⟩ k3⟩

theorem lacks_of {p : EntryRef} {name : Nat} (hn : name ≠ 0x3c ∧ name ≠ 0x31 ∧ name ≠ 0x47) (h : Lacks xs p name) :
    ∃ m, ∀ fuel, m ≤ fuel → ∀ y s, ISt d xs s → IsRef d xs s y p → ∃ s1, getAttr d fuel y name false s = .ok (none, s1) ∧ Kept d xs s s1 := by
  obtain ⟨m, hm⟩ := getAttr_inherits hok (d := d) hn h
  refine ⟨m, fun fuel hf y s hs hg => ?_⟩
  obtain ⟨a', s1, g1, g2, g3, g4⟩ := hm fuel y p.x s hf hs hg
  have g4 : a' = none := g4
  subst g4
  exact ⟨s1, g1, g2, g3⟩

theorem named_of (hfit : SectionsFit d) {p : EntryRef} {nm : List Byte} (h : NamedAs d xs p nm) :
    ∃ m, ∀ fuel, m ≤ fuel → ∀ y s, ISt d xs s → IsRef d xs s y p → ∃ s1, dieName d fuel y s = .ok (nm, s1) ∧ Kept d xs s s1 := by
  cases h with
  | @named uo x o e i a v _ h1 q1 q2 q3 =>
    obtain ⟨m, hm⟩ := getAttr_inherits hok (d := d) (by decide) h1
    refine ⟨m + 1, fun fuel hf y s hs hg => ?_⟩
    obtain ⟨a', s1, g1, g2, g3, z, rfl, g4, _⟩ := hm fuel y p.x s (by omega) hs hg
    obtain ⟨s2, k1, k2⟩ := toStr_spec hok hfit g2 g4 q1 q2 q3 (fuel := fuel) (by omega)
    refine ⟨s2, ?_, Kept.trans ⟨g2, g3⟩ k2⟩
    unfold dieName
    rw [g1, Res.bind_ok]
    exact k1
  | anonymous h =>
    obtain ⟨m, hm⟩ := lacks_of hok (by decide) h
    refine ⟨m, fun fuel hf y s hs hg => ?_⟩
    obtain ⟨s1, g1, g2⟩ := hm fuel hf y s hs hg
    refine ⟨s1, ?_, g2⟩
    unfold dieName
    rw [g1, Res.bind_ok]
    rfl

theorem type_of {p : EntryRef} {r : Option EntryRef} (h : TypeOf xs p r) :
    ∃ m, ∀ fuel, m ≤ fuel → ∀ y s, ISt d xs s → IsRef d xs s y p → ∃ z s1, typeOf d fuel y s = .ok (z, s1) ∧ Kept d xs s s1 ∧ IsRefOpt d xs s1 z r := by
  cases h with
  | @refers uo x o e i a v q h1 q1 q2 q3 q4 =>
    obtain ⟨m, hm⟩ := getAttr_inherits hok (d := d) (by decide) h1
    refine ⟨m, fun fuel hf y s hs hg => ?_⟩
    obtain ⟨a', s1, g1, g2, g3, z, rfl, g4, _⟩ := hm fuel y p.x s (by omega) hs hg
    obtain ⟨z', s2, k1, k2, k3, k4⟩ := toDIE_ref hok g2 g4 q1 q2 q3 q4
    refine ⟨some z', s2, ?_, Kept.trans ⟨g2, g3⟩ ⟨k2, k3⟩, k4⟩
    unfold typeOf
    rw [g1, Res.bind_ok]
    exact k1
  | void h =>
    obtain ⟨m, hm⟩ := lacks_of hok (by decide) h
    refine ⟨m, fun fuel hf y s hs hg => ?_⟩
    obtain ⟨s1, g1, g2⟩ := hm fuel hf y s hs hg
    refine ⟨none, s1, ?_, g2, trivial⟩
    unfold typeOf
    rw [g1, Res.bind_ok]
    rfl

omit hok in
theorem isCV_eq (t : Nat) : isCV t = knowsSome.alias t := by
  unfold isCV knowsSome
  simp only [← Bool.decide_or]
  by_cases h1 : t = 0x16
  · subst h1; rfl
  · by_cases h2 : t = 0x26
    · subst h2; rfl
    · by_cases h3 : t = 0x35
      · subst h3; rfl
      · simp [h1, h2, h3]

theorem resolved {r r' : Option EntryRef} (h : Resolves knowsSome xs r r') :
    ∃ m, ∀ fuel rounds, m ≤ fuel → m ≤ rounds → ∀ y s, ISt d xs s → IsRefOpt d xs s y r →
      ∃ z s1, removeCV d fuel rounds y s = .ok (z, s1) ∧ Kept d xs s s1 ∧ IsRefOpt d xs s1 z r' := by
  induction h with
  | void =>
    refine ⟨1, fun fuel rounds _ h y s hs hg => ?_⟩
    obtain ⟨n, rfl⟩ : ∃ n, rounds = n + 1 := ⟨rounds - 1, by omega⟩
    cases y with
    | none => exact ⟨none, s, rfl, Kept.refl hs, trivial⟩
    | some y => exact hg.elim
  | @plain p hp ha =>
    refine ⟨1, fun fuel rounds _ h y s hs hg => ?_⟩
    obtain ⟨n, rfl⟩ : ∃ n, rounds = n + 1 := ⟨rounds - 1, by omega⟩
    cases y with
    | none => exact hg.elim
    | some y =>
      obtain ⟨r, r1, r2, _⟩ := good_raw hok hs hg
      refine ⟨some y, s, ?_, Kept.refl hs, hg⟩
      rw [removeCV, r1, Res.bind_ok, r2, isCV_eq, ha]
      rfl
  | @alias p q r hp ha ht _ ih =>
    obtain ⟨m, ih⟩ := ih
    obtain ⟨m', hm'⟩ := type_of hok ht
    refine ⟨m + m' + 1, fun fuel rounds hf h y s hs hg => ?_⟩
    obtain ⟨n, rfl⟩ : ∃ n, rounds = n + 1 := ⟨rounds - 1, by omega⟩
    cases y with
    | none => exact hg.elim
    | some y =>
      obtain ⟨r, r1, r2, _⟩ := good_raw hok hs hg
      obtain ⟨z, s1, k1, k2, k3⟩ := hm' fuel (by omega) y s hs hg
      obtain ⟨z', s2, j1, j2, j3⟩ := ih fuel n (by omega) (by omega) z s1 k2.1 k3
      refine ⟨z', s2, ?_, k2.trans j2, j3⟩
      rw [removeCV, r1, Res.bind_ok, r2, isCV_eq, ha]
      simp only [if_true]
      rw [k1, Res.bind_ok]
      exact j1

theorem size_of (hfit : SectionsFit d) {p : EntryRef} {w : Nat} (h : SizeIs d xs p w) :
    ∃ m, ∀ fuel, m ≤ fuel → ∀ y s, ISt d xs s → IsRef d xs s y p → ∃ s1, sizeOfType d fuel y s = .ok (w, s1) ∧ Kept d xs s s1 := by
  cases h with
  | says h =>
    obtain ⟨m, hm⟩ := number_of hok hfit (by decide) h
    refine ⟨m, fun fuel hf y s hs hg => ?_⟩
    obtain ⟨a, w', s1, s2, g1, g2, g3, g4⟩ := hm fuel hf y s hs hg
    refine ⟨s2, ?_, g4⟩
    unfold sizeOfType
    rw [g1, Res.bind_ok]
    simp only
    rw [g2, Res.bind_ok, g3]
  | silent h =>
    obtain ⟨m, hm⟩ := lacks_of hok (by decide) h
    refine ⟨m, fun fuel hf y s hs hg => ?_⟩
    obtain ⟨s1, g1, g2⟩ := hm fuel hf y s hs hg
    obtain ⟨r, r1, r2, _⟩ := good_raw hok g2.1 (GoodDie.ext hg g2.2)
    refine ⟨s1, ?_, g2⟩
    unfold sizeOfType
    rw [g1, Res.bind_ok]
    simp only
    rw [r1, Res.bind_ok, r2]
    congr 2
    unfold isPointer
    by_cases h1 : p.e.decl.tag = 0x10
    · simp [h1]
    · by_cases h2 : p.e.decl.tag = 0x0f
      · simp [h2]
      · simp [h1, h2]

/-! ### Values -/

/-- What `RemoteValue` has of an object. -/
def Fetched (d : Sections) (xs : List DieUnit) (mem : Mem) (q : EntryRef) (addr : BitVec 64) (isValue : Bool) (buf : List Byte) : Prop :=
  ∃ m, ∀ fuel, m ≤ fuel → ∀ z s, ISt d xs s → IsRef d xs s z q → ∃ s', valueBuf d fuel mem addr isValue (some z) s = .ok (buf, s') ∧ Kept d xs s s'

omit hok in
theorem fetched_value (mem : Mem) (q : EntryRef) (addr : BitVec 64) : Fetched d xs mem q addr true (leBytes 8 addr.toNat) := by
  refine ⟨0, fun fuel _ z s hs _ => ⟨s, ?_, Kept.refl hs⟩⟩
  unfold valueBuf
  rw [if_pos rfl, leWord_eq]

theorem fetched_sized (hfit : SectionsFit d) (mem : Mem) {q : EntryRef} {w : Nat} (h : SizeIs d xs q w) (addr : BitVec 64) : Fetched d xs mem q addr false (readBuf mem addr.toNat w) := by
  obtain ⟨m, hm⟩ := size_of hok hfit h
  refine ⟨m, fun fuel hf z s hs hg => ?_⟩
  obtain ⟨s1, k1, k2⟩ := hm fuel hf z s hs hg
  refine ⟨s1, ?_, k2⟩
  unfold valueBuf
  rw [if_neg (by decide)]
  simp only
  rw [k1, Res.bind_ok]

theorem fetched_stored (hfit : SectionsFit d) {mem : Mem} {q : EntryRef} {w : Nat} (h : SizeIs d xs q w) {addr : BitVec 64} {bs : List Byte} (hs : StoredAt mem addr.toNat bs) (hl : bs.length = w) :
    Fetched d xs mem q addr false bs := by
  have := fetched_sized hok hfit mem h addr
  rw [← hl, readBuf_stored mem bs _ hs] at this
  exact this

/-- What is done with the type and the buffer. -/
theorem value_head {r : Option EntryRef} {q : EntryRef} (hr : Resolves knowsSome xs r (some q)) {mem : Mem} {addr : BitVec 64} {isValue : Bool} {buf : List Byte}
    (hb : Fetched d xs mem q addr isValue buf) (float : List Byte → List Byte) : ∃ m, ∀ fuel rounds, m ≤ fuel → m ≤ rounds → ∀ depth y s, ISt d xs s → IsRefOpt d xs s y r →
      ∃ z s', valueText d fuel rounds mem float (depth + 1) addr isValue y s =
          shownText addr (some z) (taggedText d fuel rounds mem float (fun a t s => valueText d fuel rounds mem float depth a false t s) buf) s' ∧
        Kept d xs s s' ∧ IsRef d xs s' z q := by
  obtain ⟨m1, h1⟩ := resolved hok hr
  obtain ⟨m2, h2⟩ := hb
  refine ⟨m1 + m2, fun fuel rounds hf hrd depth y s hs hg => ?_⟩
  obtain ⟨z, s1, k1, k2, k3⟩ := h1 fuel rounds (by omega) (by omega) y s hs hg
  cases z with
  | none => exact k3.elim
  | some z =>
    obtain ⟨s2, j1, j2⟩ := h2 fuel (by omega) z s1 k2.1 k3
    refine ⟨z, s2, ?_, k2.trans j2, GoodDie.ext k3 j2.2⟩
    rw [valueText, k1, Res.bind_ok]
    simp only
    rw [j1, Res.bind_ok]

/-- A base type. -/
theorem value_base (hfit : SectionsFit d) {r : Option EntryRef} {q : EntryRef} (hr : Resolves knowsSome xs r (some q)) {mem : Mem} {addr : BitVec 64} {isValue : Bool} {buf : List Byte}
    (hb : Fetched d xs mem q addr isValue buf) (ha : addr ≠ 0) (ht : q.e.decl.tag = 0x24) {enc : Nat} (he : NumberOf d xs q 0x3e enc) {float : List Byte → List Byte} {t : List Byte}
    (hx : baseText float enc buf = .ok t) : ∃ m, ∀ fuel rounds, m ≤ fuel → m ≤ rounds → ∀ depth y s, ISt d xs s → IsRefOpt d xs s y r →
      ∃ s', valueText d fuel rounds mem float (depth + 1) addr isValue y s = .ok (t, s') ∧ Kept d xs s s' := by
  obtain ⟨m1, h1⟩ := value_head hok hr hb float
  obtain ⟨m2, h2⟩ := number_of hok hfit (by decide) he
  refine ⟨m1 + m2, fun fuel rounds hf hrd depth y s hs hg => ?_⟩
  obtain ⟨z, s1, k1, k2, k3⟩ := h1 fuel rounds (by omega) (by omega) depth y s hs hg
  obtain ⟨raw, r1, r2, _⟩ := good_raw hok k2.1 k3
  obtain ⟨a, w, s2, s3, j1, j2, j3, j4⟩ := h2 fuel (by omega) z s1 k2.1 k3
  refine ⟨s3, ?_, k2.trans j4⟩
  rw [k1]
  unfold shownText
  rw [if_neg ha]
  simp only
  unfold taggedText
  rw [r1, Res.bind_ok, r2, if_pos ht]
  unfold encodedText
  rw [j1, Res.bind_ok]
  simp only
  rw [j2, Res.bind_ok]
  simp only
  rw [j3, hx, Res.bind_ok]

/-- Neither a base type nor a pointer. -/
theorem value_other (hfit : SectionsFit d) {r : Option EntryRef} {q : EntryRef} (hr : Resolves knowsSome xs r (some q)) {mem : Mem} {addr : BitVec 64} {isValue : Bool} {buf : List Byte}
    (hb : Fetched d xs mem q addr isValue buf) (ha : addr ≠ 0) (ht : q.e.decl.tag ≠ 0x24 ∧ isPointer q.e.decl.tag = false) {nm : List Byte} (he : NamedAs d xs q nm)
    (float : List Byte → List Byte) : ∃ m, ∀ fuel rounds, m ≤ fuel → m ≤ rounds → ∀ depth y s, ISt d xs s → IsRefOpt d xs s y r →
      ∃ s', valueText d fuel rounds mem float (depth + 1) addr isValue y s = .ok (asciiText "<unprintable type " ++ (nm ++ asciiText ">"), s') ∧ Kept d xs s s' := by
  obtain ⟨m1, h1⟩ := value_head hok hr hb float
  obtain ⟨m2, h2⟩ := named_of hok hfit he
  refine ⟨m1 + m2, fun fuel rounds hf hrd depth y s hs hg => ?_⟩
  obtain ⟨z, s1, k1, k2, k3⟩ := h1 fuel rounds (by omega) (by omega) depth y s hs hg
  obtain ⟨raw, r1, r2, _⟩ := good_raw hok k2.1 k3
  obtain ⟨s2, j1, j2⟩ := h2 fuel (by omega) z s1 k2.1 k3
  refine ⟨s2, ?_, k2.trans j2⟩
  have hp : ¬(q.e.decl.tag = 0x10 ∨ q.e.decl.tag = 0x0f) := by
    have := ht.2
    unfold isPointer at this
    simp at this
    omega
  rw [k1]
  unfold shownText
  rw [if_neg ha]
  simp only
  unfold taggedText
  rw [r1, Res.bind_ok, r2, if_neg ht.1, if_neg hp, j1, Res.bind_ok]
  rfl

/-- A pointer: what is written for its target. -/
theorem value_pointer {r : Option EntryRef} {q : EntryRef} (hr : Resolves knowsSome xs r (some q)) {mem : Mem} {addr : BitVec 64} {isValue : Bool} {buf : List Byte}
    (hb : Fetched d xs mem q addr isValue buf) (ha : addr ≠ 0) (ht : isPointer q.e.decl.tag = true) {n : Nat} (hn : NumBytes 8 n buf) {c c' : Option EntryRef} (hty : TypeOf xs q c)
    (hc : Resolves knowsSome xs c c') (float : List Byte → List Byte) : ∃ m, ∀ fuel rounds, m ≤ fuel → m ≤ rounds → ∀ depth y s, ISt d xs s → IsRefOpt d xs s y r →
      ∃ z s', valueText d fuel rounds mem float (depth + 1) addr isValue y s =
          targetText d fuel mem (fun a t s => valueText d fuel rounds mem float depth a false t s) (BitVec.ofNat 64 n) z s' ∧ Kept d xs s s' ∧ IsRefOpt d xs s' z c' := by
  obtain ⟨m1, h1⟩ := value_head hok hr hb float
  obtain ⟨m2, h2⟩ := type_of hok hty
  obtain ⟨m3, h3⟩ := resolved hok hc
  refine ⟨m1 + m2 + m3, fun fuel rounds hf hrd depth y s hs hg => ?_⟩
  obtain ⟨z, s1, k1, k2, k3⟩ := h1 fuel rounds (by omega) (by omega) depth y s hs hg
  obtain ⟨raw, r1, r2, _⟩ := good_raw hok k2.1 k3
  obtain ⟨z2, s2, j1, j2, j3⟩ := h2 fuel (by omega) z s1 k2.1 k3
  obtain ⟨z3, s3, l1, l2, l3⟩ := h3 fuel rounds (by omega) (by omega) z2 s2 j2.1 j3
  refine ⟨z3, s3, ?_, k2.trans (j2.trans l2), l3⟩
  have hp : q.e.decl.tag = 0x10 ∨ q.e.decl.tag = 0x0f := by
    unfold isPointer at ht
    simp at ht
    omega
  obtain ⟨n1, rfl⟩ := hn
  rw [k1]
  unfold shownText
  rw [if_neg ha]
  simp only
  unfold taggedText
  rw [r1, Res.bind_ok, r2, if_neg (by omega), if_pos hp, if_neg (by rw [leBytes_length]; decide), j1, Res.bind_ok]
  simp only
  rw [l1, Res.bind_ok, List.take_of_length_le (by rw [leBytes_length]; decide), num_leBytes _ _ n1]

omit hok in
theorem ptr_num {n : Nat} (h : n < 256 ^ 8) : (BitVec.ofNat 64 n).toNat = n := by
  rw [BitVec.toNat_ofNat]; exact Nat.mod_eq_of_lt h

/-- What is shown of an object. -/
theorem object_shown (hfit : SectionsFit d) {mem : Mem} {q : EntryRef} {buf t : List Byte} (h : ObjectText knowsSome d xs mem q buf t) (float : List Byte → List Byte) :
    ∀ (r : Option EntryRef) (addr : BitVec 64) (isValue : Bool), Resolves knowsSome xs r (some q) → addr ≠ 0 → (∃ b, Fetched d xs mem q addr isValue b ∧ (isOpaque q.e.decl.tag ∨ b = buf)) →
    ∃ m, ∀ fuel rounds depth, m ≤ fuel → m ≤ rounds → m ≤ depth → ∀ y s, ISt d xs s → IsRefOpt d xs s y r →
      ∃ s', valueText d fuel rounds mem float depth addr isValue y s = .ok (t, s') ∧ Kept d xs s s' := by
  have hop : ∀ (q : EntryRef), isPointer q.e.decl.tag = true → isOpaque q.e.decl.tag = true → False := by
    intro q h1 h2
    unfold isOpaque at h2
    simp [h1] at h2
  induction h with
  | @base p enc bs t hp ht he hx =>
    intro r addr isValue hr ha hb
    obtain ⟨b, hb, hbb⟩ := hb
    have : b = bs := by
      rcases hbb with h | h
      · rw [ht] at h; cases h
      · exact h
    subst this
    obtain ⟨m, hm⟩ := value_base hok hfit hr hb ha ht he (base_shown hx float)
    refine ⟨m + 1, fun fuel rounds depth h1 h2 h3 y s hs hg => ?_⟩
    obtain ⟨k, rfl⟩ : ∃ k, depth = k + 1 := ⟨depth - 1, by omega⟩
    exact hm fuel rounds (by omega) (by omega) k y s hs hg
  | @void p c n bs hp ht hn hty hc =>
    intro r addr isValue hr ha hb
    obtain ⟨b, hb, hbb⟩ := hb
    have : b = bs := hbb.resolve_left (hop p ht)
    subst this
    obtain ⟨m, hm⟩ := value_pointer hok hr hb ha ht hn hty hc float
    refine ⟨m + 1, fun fuel rounds depth h1 h2 h3 y s hs hg => ?_⟩
    obtain ⟨k, rfl⟩ : ∃ k, depth = k + 1 := ⟨depth - 1, by omega⟩
    obtain ⟨z, s1, k1, k2, k3⟩ := hm fuel rounds (by omega) (by omega) k y s hs hg
    cases z with
    | some z => exact k3.elim
    | none =>
      refine ⟨s1, ?_, k2⟩
      rw [k1, targetText, ptr_num hn.1]
      rfl
  | @string p c q n str bs hp ht hn hty hc hnm hcs =>
    intro r addr isValue hr ha hb
    obtain ⟨b, hb, hbb⟩ := hb
    have : b = bs := hbb.resolve_left (hop p ht)
    subst this
    obtain ⟨m, hm⟩ := value_pointer hok hr hb ha ht hn hty hc float
    obtain ⟨m', hm'⟩ := named_of hok hfit hnm
    refine ⟨m + m' + 1, fun fuel rounds depth h1 h2 h3 y s hs hg => ?_⟩
    obtain ⟨k, rfl⟩ : ∃ k, depth = k + 1 := ⟨depth - 1, by omega⟩
    obtain ⟨z, s1, k1, k2, k3⟩ := hm fuel rounds (by omega) (by omega) k y s hs hg
    cases z with
    | none => exact k3.elim
    | some z =>
      obtain ⟨s2, j1, j2⟩ := hm' fuel (by omega) z s1 k2.1 k3
      refine ⟨s2, ?_, k2.trans j2⟩
      rw [k1, targetText, j1, Res.bind_ok]
      simp only
      rw [if_pos (by rfl), ptr_num hn.1, readStr_at hcs]
      rfl
  | @noString p c q bs hp ht hn hty hc hnm =>
    intro r addr isValue hr ha hb
    obtain ⟨b, hb, hbb⟩ := hb
    have : b = bs := hbb.resolve_left (hop p ht)
    subst this
    obtain ⟨m, hm⟩ := value_pointer hok hr hb ha ht hn hty hc float
    obtain ⟨m', hm'⟩ := named_of hok hfit hnm
    refine ⟨m + m' + 1, fun fuel rounds depth h1 h2 h3 y s hs hg => ?_⟩
    obtain ⟨k, rfl⟩ : ∃ k, depth = k + 1 := ⟨depth - 1, by omega⟩
    obtain ⟨z, s1, k1, k2, k3⟩ := hm fuel rounds (by omega) (by omega) k y s hs hg
    cases z with
    | none => exact k3.elim
    | some z =>
      obtain ⟨s2, j1, j2⟩ := hm' fuel (by omega) z s1 k2.1 k3
      refine ⟨s2, ?_, k2.trans j2⟩
      rw [k1, targetText, j1, Res.bind_ok]
      simp only
      rw [if_pos (by rfl)]
      rfl
  | @null p c q nm bs hp ht hn hty hc hnm hne =>
    intro r addr isValue hr ha hb
    obtain ⟨b, hb, hbb⟩ := hb
    have : b = bs := hbb.resolve_left (hop p ht)
    subst this
    obtain ⟨m, hm⟩ := value_pointer hok hr hb ha ht hn hty hc float
    obtain ⟨m', hm'⟩ := named_of hok hfit hnm
    refine ⟨m + m' + 1, fun fuel rounds depth h1 h2 h3 y s hs hg => ?_⟩
    obtain ⟨k, rfl⟩ : ∃ k, depth = k + 1 := ⟨depth - 1, by omega⟩
    obtain ⟨z, s1, k1, k2, k3⟩ := hm fuel rounds (by omega) (by omega) k y s hs hg
    cases z with
    | none => exact k3.elim
    | some z =>
      obtain ⟨s2, j1, j2⟩ := hm' fuel (by omega) z s1 k2.1 k3
      refine ⟨s2, ?_, k2.trans j2⟩
      rw [k1, targetText, j1, Res.bind_ok]
      simp only
      rw [if_neg (show nm ≠ say "char" from hne), if_pos (show (BitVec.ofNat 64 0 : BitVec 64) = 0 from rfl)]
      rfl
  | @object p c q nm n w bs bs' t hp ht hn h0 hty hc hnm hne hsz hst _ ih =>
    intro r addr isValue hr ha hb
    obtain ⟨b, hb, hbb⟩ := hb
    have : b = bs := hbb.resolve_left (hop p ht)
    subst this
    have hq : Resolves knowsSome xs (some q) (some q) := by
      have key : ∀ {a b}, Resolves knowsSome xs a b → ∀ q, b = some q → Resolves knowsSome xs (some q) (some q) := by
        intro a b h
        induction h with
        | void => intro q h; cases h
        | plain h1 h2 => intro q h; cases h; exact .plain h1 h2
        | alias _ _ _ _ ih => exact ih
      exact key hc q rfl
    obtain ⟨m, hm⟩ := value_pointer hok hr hb ha ht hn hty hc float
    obtain ⟨m', hm'⟩ := named_of hok hfit hnm
    have hne0 : BitVec.ofNat 64 n ≠ 0 := by
      intro hc
      have := congrArg BitVec.toNat hc
      rw [ptr_num hn.1] at this
      exact h0 this
    obtain ⟨m'', hm''⟩ := ih (some q) (BitVec.ofNat 64 n) false hq hne0 (by
      rcases hst with h | ⟨h, hl⟩
      · exact ⟨_, fetched_sized hok hfit mem hsz _, .inl h⟩
      · exact ⟨_, fetched_stored hok hfit hsz (by rw [ptr_num hn.1]; exact h) hl, .inr rfl⟩)
    refine ⟨m + m' + m'' + 1, fun fuel rounds depth h1 h2 h3 y s hs hg => ?_⟩
    obtain ⟨k, rfl⟩ : ∃ k, depth = k + 1 := ⟨depth - 1, by omega⟩
    obtain ⟨z, s1, k1, k2, k3⟩ := hm fuel rounds (by omega) (by omega) k y s hs hg
    cases z with
    | none => exact k3.elim
    | some z =>
      obtain ⟨s2, j1, j2⟩ := hm' fuel (by omega) z s1 k2.1 k3
      obtain ⟨s3, l1, l2⟩ := hm'' fuel rounds k (by omega) (by omega) (by omega) (some z) s2 j2.1 (IsRefOpt.ext (r := some q) k3 j2.2)
      refine ⟨s3, ?_, k2.trans (j2.trans l2)⟩
      rw [k1, targetText, j1, Res.bind_ok]
      simp only
      rw [if_neg (show nm ≠ say "char" from hne), if_neg hne0, l1, Res.bind_ok, ptr_num hn.1]
      rfl
  | @nameOnly p nm bs hp ht hnm =>
    intro r addr isValue hr ha hb
    obtain ⟨b, hb, hbb⟩ := hb
    have h2 : p.e.decl.tag ≠ 0x24 ∧ isPointer p.e.decl.tag = false := by
      unfold isOpaque at ht
      simp only [Bool.not_eq_true', Bool.or_eq_false_iff, decide_eq_false_iff_not] at ht
      exact ⟨ht.1.1, ht.1.2⟩
    obtain ⟨m, hm⟩ := value_other hok hfit hr hb ha h2 hnm float
    refine ⟨m + 1, fun fuel rounds depth h1 h2 h3 y s hs hg => ?_⟩
    obtain ⟨k, rfl⟩ : ∃ k, depth = k + 1 := ⟨depth - 1, by omega⟩
    exact hm fuel rounds (by omega) (by omega) k y s hs hg

end

end Pstack.Props
