import Verif.Model.LocList
import Verif.Spec.LocList
import Verif.Props.Expr
/-
C22: location lists.
-/
namespace Pstack.Props
open Pstack.Dwarf Pstack.Spec Pstack.LocList Pstack.Arch

/-- What a search must end with: the bytes of the chosen expression, or nothing. -/
def Chosen (d : List Byte) (r : Found) : Option (List Byte) → Prop
  | none => r = none
  | some code => ∃ off, r = some (off, off + code.length) ∧ (d.drop off).take code.length = code

theorem getuleb_of (d rest : List Byte) (n off : Nat) (hn : n < 2 ^ 64) (hw : d.length < W64)
    (h : d.drop off = encodeU n ++ rest) : getuleb128 d off = .ok (BitVec.ofNat 64 n, off + (encodeU n).length) := by
  have e : (BitVec.ofNat 64 n).toNat = n := by simp; omega
  have := getuleb_prefix d rest (BitVec.ofNat 64 n) off (by rw [e]; exact h) hw
  rw [e] at this
  exact this

theorem le_iff (a b : BitVec 64) : a ≤ b ↔ a.toNat ≤ b.toNat := BitVec.le_def
theorem lt_iff (a b : BitVec 64) : a < b ↔ a.toNat < b.toNat := BitVec.lt_def

theorem len_le_of_drop {d bs rest : List Byte} {off : Nat} (h : d.drop off = bs ++ rest) (hb : bs ≠ []) : off + bs.length ≤ d.length := by
  have := congrArg List.length h
  simp only [List.length_drop, List.length_append] at this
  have := List.length_pos_iff.2 hb
  omega

theorem drop_code {d code rest : List Byte} {off : Nat} (h : d.drop off = code ++ rest) : (d.drop off).take code.length = code := by
  rw [h]; simp

theorem skip_ok {d code rest : List Byte} {off : Nat} (hw : d.length < W64) (h : d.drop off = code ++ rest) (hr : rest ≠ []) :
    skip code.length off = .ok ((), off + code.length) ∧ off + code.length < W64 := by
  have := congrArg List.length h
  simp only [List.length_drop, List.length_append] at this
  have := List.length_pos_iff.2 hr
  unfold skip
  rw [Nat.mod_eq_of_lt (by omega)]
  exact ⟨rfl, by omega⟩

/-- The range test of the code, on process addresses, is the one of the specification, on object addresses. -/
theorem range_iff (reloc base s e a : Nat) (h1 : reloc + base + s < 2 ^ 64) (h2 : reloc + base + e < 2 ^ 64) (ha : reloc + a < 2 ^ 64)
    :
    (BitVec.ofNat 64 (reloc + base) + BitVec.ofNat 64 s ≤ BitVec.ofNat 64 (reloc + a) ∧
      BitVec.ofNat 64 (reloc + a) < BitVec.ofNat 64 (reloc + base) + BitVec.ofNat 64 e) ↔ (base + s ≤ a ∧ a < base + e) := by
  rw [← BitVec.ofNat_add, ← BitVec.ofNat_add, le_iff, lt_iff]
  simp only [BitVec.toNat_ofNat]
  rw [Nat.mod_eq_of_lt h1, Nat.mod_eq_of_lt h2, Nat.mod_eq_of_lt ha]
  omega

theorem search5 (d : List Byte) (hw : d.length < W64) (addrs : Nat → Res (BitVec 64)) (reloc a : Nat) (ha : reloc + a < 2 ^ 64) :
    ∀ (es : List LocEntry) (base off fuel : Nat) (rest : List Byte), FitsAt reloc base es → StartsAtZero base es →
    d.drop off = encodeList5 es ++ rest → es.length < fuel →
    ∃ r, searchV5 d addrs 8 (BitVec.ofNat 64 reloc) (BitVec.ofNat 64 (reloc + a)) fuel (BitVec.ofNat 64 (reloc + base)) off = .ok r ∧
      Chosen d r (locate a base es) := by
  intro es
  induction es with
  | nil =>
    intro base off fuel rest _ _ hd hf
    obtain ⟨fuel, rfl⟩ : ∃ k, fuel = k + 1 := ⟨fuel - 1, by simp at hf; omega⟩
    refine ⟨none, ?_, rfl⟩
    unfold searchV5 entryV5
    rw [Parse.bind_ok (getu8_prefix d rest 0#8 off (by simpa [encodeList5] using hd))]
    rfl
  | cons x es ih =>
    intro base off fuel rest hfit hns hd hf
    obtain ⟨fuel, rfl⟩ : ∃ k, fuel = k + 1 := ⟨fuel - 1, by simp at hf; omega⟩
    have htail : encodeList5 es ++ rest ≠ [] := by simp [encodeList5]
    have hlist : encodeList5 (x :: es) ++ rest = x.encode5 ++ (encodeList5 es ++ rest) := by simp [encodeList5]
    rw [hlist] at hd
    cases x with
    | pair s e code =>
      obtain ⟨f1, f2, f3, f4, f5, f6⟩ := hfit
      simp only [LocEntry.encode5, List.cons_append, List.append_assoc] at hd
      have h1 := drop_cons hd
      have h2 := drop_prefix h1
      have h3 := drop_prefix h2
      have h4 := drop_prefix h3
      have hr := range_iff reloc base s e a f3 f4 ha
      have hcl : (BitVec.ofNat 64 code.length).toNat = code.length := by simp; omega
      obtain ⟨hk, hlt⟩ := skip_ok hw h4 htail
      by_cases hin : base + s ≤ a ∧ a < base + e
      · refine ⟨some (off + 1 + (encodeU s).length + (encodeU e).length + (encodeU code.length).length,
          off + 1 + (encodeU s).length + (encodeU e).length + (encodeU code.length).length + code.length), ?_, ?_⟩
        rotate_left
        · simp only [locate, if_pos hin]
          exact ⟨_, rfl, drop_code h4⟩
        · unfold searchV5 entryV5
          rw [Parse.bind_ok (getu8_prefix d _ _ off hd)]
          simp only [BitVec.toNat_ofNat, Nat.reducePow, Nat.reduceMod]
          rw [Parse.bind_ok (getuleb_of d _ s (off + 1) f1 hw h1), Parse.bind_ok (getuleb_of d _ e _ f2 hw h2),
            Parse.bind_ok (getuleb_of d _ _ _ f5 hw h3)]
          rw [Parse.bind_ok (show getOffset _ = _ from rfl), if_pos (hr.2 hin), hcl, Nat.mod_eq_of_lt hlt]
          rfl
      · obtain ⟨r, hr1, hr2⟩ := ih base _ fuel rest f6 hns (drop_prefix h4) (by simp at hf; omega)
        refine ⟨r, ?_, by simp only [locate, if_neg hin]; exact hr2⟩
        unfold searchV5 entryV5
        rw [Parse.bind_ok (getu8_prefix d _ _ off hd)]
        simp only [BitVec.toNat_ofNat, Nat.reducePow, Nat.reduceMod]
        rw [Parse.bind_ok (getuleb_of d _ s (off + 1) f1 hw h1), Parse.bind_ok (getuleb_of d _ e _ f2 hw h2),
          Parse.bind_ok (getuleb_of d _ _ _ f5 hw h3)]
        rw [Parse.bind_ok (show getOffset _ = _ from rfl), if_neg (fun h => hin (hr.1 h)), hcl, Parse.bind_ok hk]
        exact hr1
    | base b =>
      obtain ⟨f1, f2⟩ := hfit
      simp only [LocEntry.encode5, List.cons_append] at hd
      have h1 := drop_cons hd
      obtain ⟨r, hr1, hr2⟩ := ih b _ fuel rest f2 hns (drop_prefix h1) (by simp at hf; omega)
      refine ⟨r, ?_, hr2⟩
      unfold searchV5 entryV5
      rw [Parse.bind_ok (getu8_prefix d _ _ off hd)]
      simp only [BitVec.toNat_ofNat, Nat.reducePow, Nat.reduceMod]
      rw [Parse.bind_ok (getuint_leBytes d _ (off + 1) 8 b (by decide) (by omega) h1)]
      rw [← BitVec.ofNat_add]
      rw [leBytes_length] at hr1
      exact hr1
    | startLength s l code =>
      obtain ⟨f1, f2, f6⟩ := hfit
      obtain ⟨rfl, hns⟩ := hns
      simp only [LocEntry.encode5, List.cons_append, List.append_assoc] at hd
      have h1 := drop_cons hd
      have h2 := drop_prefix h1
      have h3 := drop_prefix h2
      have h4 := drop_prefix h3
      rw [leBytes_length] at h2 h3 h4
      have hr := range_iff reloc 0 s (s + l) a (by omega) (by omega) ha
      rw [BitVec.ofNat_add (x := s)] at hr
      have hcl : (BitVec.ofNat 64 code.length).toNat = code.length := by simp; omega
      obtain ⟨hk, hlt⟩ := skip_ok hw h4 htail
      have hiff : (0 + s ≤ a ∧ a < 0 + (s + l)) ↔ (s ≤ a ∧ a < s + l) := by omega
      by_cases hin : s ≤ a ∧ a < s + l
      · refine ⟨some (off + 1 + 8 + (encodeU l).length + (encodeU code.length).length,
          off + 1 + 8 + (encodeU l).length + (encodeU code.length).length + code.length), ?_, ?_⟩
        rotate_left
        · simp only [locate, if_pos hin]
          exact ⟨_, rfl, drop_code h4⟩
        · unfold searchV5 entryV5
          rw [Parse.bind_ok (getu8_prefix d _ _ off hd)]
          simp only [BitVec.toNat_ofNat, Nat.reducePow, Nat.reduceMod]
          rw [Parse.bind_ok (getuint_leBytes d _ (off + 1) 8 s (by decide) (by omega) h1), Parse.bind_ok (getuleb_of d _ l _ (by omega) hw h2),
            Parse.bind_ok (getuleb_of d _ _ _ f2 hw h3)]
          rw [Parse.bind_ok (show getOffset _ = _ from rfl), if_pos (hr.2 (hiff.2 hin)), hcl, Nat.mod_eq_of_lt hlt]
          rfl
      · obtain ⟨r, hr1, hr2⟩ := ih 0 _ fuel rest f6 hns (drop_prefix h4) (by simp at hf; omega)
        refine ⟨r, ?_, by simp only [locate, if_neg hin]; exact hr2⟩
        unfold searchV5 entryV5
        rw [Parse.bind_ok (getu8_prefix d _ _ off hd)]
        simp only [BitVec.toNat_ofNat, Nat.reducePow, Nat.reduceMod]
        rw [Parse.bind_ok (getuint_leBytes d _ (off + 1) 8 s (by decide) (by omega) h1), Parse.bind_ok (getuleb_of d _ l _ (by omega) hw h2),
          Parse.bind_ok (getuleb_of d _ _ _ f2 hw h3)]
        rw [Parse.bind_ok (show getOffset _ = _ from rfl), if_neg (fun h => hin (hiff.1 (hr.1 h))), hcl, Parse.bind_ok hk]
        exact hr1

theorem getint8_of (d rest : List Byte) (n off : Nat) (hn : n < 2 ^ 64) (h : d.drop off = leBytes 8 n ++ rest) :
    getint d 8 off = .ok (BitVec.ofNat 64 n, off + 8) := by
  have hlen := leBytes_length 8 n
  have := getint_prefix d _ rest off h (by omega) (by intro he; rw [he] at hlen; simp at hlen)
  rw [hlen] at this
  have h8 : leNat (leBytes 8 n) = n := by rw [leNat_leBytes]; exact Nat.mod_eq_of_lt (by simpa using hn)
  have e : BitVec.ofInt 64 (leInt (leBytes 8 n)) = BitVec.ofNat 64 n := by
    apply BitVec.eq_of_toNat_eq
    unfold leInt
    rw [hlen, h8, BitVec.toNat_ofInt, BitVec.toNat_ofNat]
    simp only [Nat.reduceMul, Nat.reduceSub, Nat.reducePow]
    clear this h hlen h8
    split <;> omega
  rw [this, e]

theorem search4 (d : List Byte) (hw : d.length < W64) (reloc a base : Nat) (ha : reloc + a < 2 ^ 64) :
    ∀ (es : List LocEntry) (off fuel : Nat) (rest : List Byte), FitsAt reloc base es → OnlyPairs es →
    d.drop off = encodeList4 es ++ rest → es.length < fuel →
    ∃ r, searchV4 d (BitVec.ofNat 64 (reloc + a)) (BitVec.ofNat 64 (reloc + base)) fuel off = .ok r ∧
      Chosen d r (locate a base es) := by
  intro es
  induction es with
  | nil =>
    intro off fuel rest _ _ hd hf
    obtain ⟨fuel, rfl⟩ : ∃ k, fuel = k + 1 := ⟨fuel - 1, by simp at hf; omega⟩
    refine ⟨none, ?_, rfl⟩
    have hd' : d.drop off = leBytes 8 0 ++ (leBytes 8 0 ++ rest) := by simpa [encodeList4] using hd
    have h1 := drop_prefix hd'
    rw [leBytes_length] at h1
    unfold searchV4 entryV4
    rw [Parse.bind_ok (getint8_of d _ 0 off (by decide) hd'), Parse.bind_ok (getint8_of d _ 0 _ (by decide) h1), if_pos (by decide)]
    rfl
  | cons x es ih =>
    intro off fuel rest hfit hns hd hf
    obtain ⟨fuel, rfl⟩ : ∃ k, fuel = k + 1 := ⟨fuel - 1, by simp at hf; omega⟩
    have htail : encodeList4 es ++ rest ≠ [] := by simp [encodeList4, leBytes]
    have hlist : encodeList4 (x :: es) ++ rest = x.encode4 ++ (encodeList4 es ++ rest) := by simp [encodeList4]
    rw [hlist] at hd
    cases x with
    | pair s e code =>
      obtain ⟨f1, f2, f3, f4, f5, f6⟩ := hfit
      obtain ⟨n1, n2, n3⟩ := hns
      simp only [LocEntry.encode4, List.append_assoc] at hd
      have h1 := drop_prefix hd
      have h2 := drop_prefix h1
      have h3 := drop_prefix h2
      rw [leBytes_length] at h1 h2 h3
      rw [leBytes_length] at h2 h3
      rw [leBytes_length] at h3
      have hr := range_iff reloc base s e a f3 f4 ha
      have hcl : (BitVec.ofNat 64 code.length).toNat = code.length := by simp; omega
      obtain ⟨hk, hlt⟩ := skip_ok hw h3 htail
      have hnz : ¬ (BitVec.ofNat 64 s = 0 ∧ BitVec.ofNat 64 e = 0) := by
        rintro ⟨e1, e2⟩
        have e1 := congrArg BitVec.toNat e1
        have e2 := congrArg BitVec.toNat e2
        simp at e1 e2
        omega
      by_cases hin : base + s ≤ a ∧ a < base + e
      · refine ⟨some (off + 8 + 8 + 2, off + 8 + 8 + 2 + code.length), ?_, ?_⟩
        rotate_left
        · simp only [locate, if_pos hin]
          exact ⟨_, rfl, drop_code h3⟩
        · unfold searchV4 entryV4
          rw [Parse.bind_ok (getint8_of d _ s off f1 hd), Parse.bind_ok (getint8_of d _ e _ f2 h1), if_neg hnz,
            Parse.bind_ok (getuint_leBytes d _ _ 2 code.length (by decide) (by omega) h2)]
          rw [Parse.bind_ok (show getOffset _ = _ from rfl), if_pos (hr.2 hin), hcl, Nat.mod_eq_of_lt (a := code.length) (by omega), Nat.mod_eq_of_lt hlt]
          rfl
      · obtain ⟨r, hr1, hr2⟩ := ih _ fuel rest f6 n3 (drop_prefix h3) (by simp at hf; omega)
        refine ⟨r, ?_, by simp only [locate, if_neg hin]; exact hr2⟩
        unfold searchV4 entryV4
        rw [Parse.bind_ok (getint8_of d _ s off f1 hd), Parse.bind_ok (getint8_of d _ e _ f2 h1), if_neg hnz,
            Parse.bind_ok (getuint_leBytes d _ _ 2 code.length (by decide) (by omega) h2)]
        rw [Parse.bind_ok (show getOffset _ = _ from rfl), if_neg (fun h => hin (hr.1 h)), hcl, Parse.bind_ok hk]
        exact hr1
    | base b => exact absurd hns (by simp [OnlyPairs])
    | startLength s l code => exact absurd hns (by simp [OnlyPairs])

theorem encode5_pos (x : LocEntry) : 0 < x.encode5.length := by cases x <;> simp [LocEntry.encode5]
theorem encodeList5_len (es : List LocEntry) : es.length < (encodeList5 es).length := by
  induction es with
  | nil => simp [encodeList5]
  | cons x es ih =>
    have := encode5_pos x
    simp [encodeList5] at ih ⊢
    omega
theorem encodeList4_len (es : List LocEntry) (h : OnlyPairs es) : es.length < (encodeList4 es).length := by
  induction es with
  | nil => simp [encodeList4, leBytes_length]
  | cons x es ih =>
    cases x with
    | pair s e code =>
      have := ih h.2.2
      simp [encodeList4, LocEntry.encode4, leBytes_length] at this ⊢
      omega
    | base b => exact absurd h (by simp [OnlyPairs])
    | startLength s l code => exact absurd h (by simp [OnlyPairs])

/-- What evaluating a variable at object address `a` must give, if `loc` is the expression the list has for that address:
0 if there is none, and otherwise the value of exactly those bytes as an expression. -/
def EvaluatesTo (env : Expr.Env) (d : List Byte) (reloc : BitVec 64) (stack : List (BitVec 64)) (out : Out (BitVec 64)) (loc : Option (List Byte)) : Prop :=
  (loc = none → out = .ok 0) ∧
  ∀ code, loc = some code → ∃ off, (d.drop off).take code.length = code ∧
    out = (do let (_, v) ← Expr.eval env d reloc stack 0 off (off + code.length); return v)

theorem evaluatesTo_of (env : Expr.Env) (d : List Byte) (reloc : BitVec 64) (stack : List (BitVec 64)) (r : Found) (loc : Option (List Byte))
    (h : Chosen d r loc) : EvaluatesTo env d reloc stack (evalFound env d reloc stack (.ok r)) loc := by
  constructor
  · rintro rfl
    rw [show r = none from h]; rfl
  · rintro code rfl
    obtain ⟨off, rfl, h2⟩ := h
    exact ⟨off, h2, rfl⟩

/-- C22, DWARF 5. `es` is the list as the compiler wrote it, at offset `off` of .debug_loclists; the object is loaded at
`reloc`, its unit's low pc is `low`, and the frame is at object address `a`. The expression evaluated is that of the first
entry whose half-open range contains the address. Missing: entries with an absolute start, other than in units whose base
is 0 (they are disproved below), and the entry kinds the code rejects (default location, startx and x-indexed forms). -/
theorem C22_v5_partial (env : Expr.Env) (d : List Byte) (hw : d.length < W64) (addrs : Nat → Res (BitVec 64)) (reloc low a : Nat)
    (ha : reloc + a < 2 ^ 64) (es : List LocEntry) (off : Nat) (rest : List Byte) (stack : List (BitVec 64)) (version : Nat) (hv : 5 ≤ version)
    (hfit : FitsAt reloc low es) (hs : StartsAtZero low es) (h : d.drop off = encodeList5 es ++ rest) :
    EvaluatesTo env d (BitVec.ofNat 64 reloc) stack
      (evalList env version d addrs 8 off (BitVec.ofNat 64 reloc) (BitVec.ofNat 64 low) (BitVec.ofNat 64 (reloc + a)) stack)
      (locate a low es) := by
  have hl := congrArg List.length h
  have := encodeList5_len es
  simp only [List.length_drop, List.length_append] at hl
  obtain ⟨r, h1, h2⟩ := search5 d hw addrs reloc a ha es low off (d.length + 1) rest hfit hs h (by omega)
  unfold evalList
  simp only
  rw [if_pos hv, ← BitVec.ofNat_add, h1]
  exact evaluatesTo_of _ _ _ _ _ _ h2

/-- C22, DWARF 2 to 4. Missing: base address entries, which the code does not know (disproved below). -/
theorem C22_v4_partial (env : Expr.Env) (d : List Byte) (hw : d.length < W64) (addrs : Nat → Res (BitVec 64)) (reloc low a : Nat)
    (ha : reloc + a < 2 ^ 64) (es : List LocEntry) (off : Nat) (rest : List Byte) (stack : List (BitVec 64)) (version : Nat) (hv : version < 5)
    (hfit : FitsAt reloc low es) (hs : OnlyPairs es) (h : d.drop off = encodeList4 es ++ rest) :
    EvaluatesTo env d (BitVec.ofNat 64 reloc) stack
      (evalList env version d addrs 8 off (BitVec.ofNat 64 reloc) (BitVec.ofNat 64 low) (BitVec.ofNat 64 (reloc + a)) stack)
      (locate a low es) := by
  have hl := congrArg List.length h
  have := encodeList4_len es hs
  simp only [List.length_drop, List.length_append] at hl
  obtain ⟨r, h1, h2⟩ := search4 d hw reloc a low ha es off (d.length + 1) rest hfit hs h (by omega)
  unfold evalList
  simp only
  rw [if_neg (by omega), ← BitVec.ofNat_add, h1]
  exact evaluatesTo_of _ _ _ _ _ _ h2

/-- C22 with C20: the location itself. -/
theorem C22_location_partial (env : Expr.Env) (d : List Byte) (hw : d.length < W64) (addrs : Nat → Res (BitVec 64)) (reloc low a : Nat)
    (ha : reloc + a < 2 ^ 64) (es : List LocEntry) (off : Nat) (rest : List Byte) (stack : List (BitVec 64)) (version : Nat) (hv : 5 ≤ version)
    (hfit : FitsAt reloc low es) (hs : StartsAtZero low es) (h : d.drop off = encodeList5 es ++ rest)
    (m : Machine) (hp : Provides env m (BitVec.ofNat 64 reloc)) (e : Spec.Expr) (hwf : e.WF) (hex : e.Exact m)
    (hloc : locate a low es = some e.encode) (v : BitVec 64) (hval : e.value m = some v) :
    evalList env version d addrs 8 off (BitVec.ofNat 64 reloc) (BitVec.ofNat 64 low) (BitVec.ofNat 64 (reloc + a)) stack = .ok v := by
  obtain ⟨o, h1, h2⟩ := (C22_v5_partial env d hw addrs reloc low a ha es off rest stack version hv hfit hs h).2 _ hloc
  have h3 : d.drop o = e.encode ++ (d.drop o).drop e.encode.length := by
    conv => lhs; rw [← List.take_append_drop e.encode.length (d.drop o), h1]
  rw [h2, C20_expression_partial env d hw _ m hp e hwf hex v hval _ stack 0 o h3]
  rfl

/-- The hypotheses of C22 hold of a list with a base change and two ranges, and the second range is chosen. -/
theorem C22_example : FitsAt 0x400000 0x1000 [.pair 0 16 [0x30#8], .base 0x2000, .pair 4 8 [0x31#8]] ∧
    StartsAtZero 0x1000 [.pair 0 16 [0x30#8], .base 0x2000, .pair 4 8 [0x31#8]] ∧
    locate 0x2004 0x1000 [.pair 0 16 [0x30#8], .base 0x2000, .pair 4 8 [0x31#8]] = some [0x31#8] ∧
    locate 0x2008 0x1000 [.pair 0 16 [0x30#8], .base 0x2000, .pair 4 8 [0x31#8]] = none := by
  simp [FitsAt, StartsAtZero, locate]

/-- C22, where it fails: an entry with an absolute start is taken relative to the base. In any unit whose low pc is not 0
the first address of its range is not found. -/
theorem C22_not_start_length (env : Expr.Env) (d : List Byte) (hw : d.length < W64) (addrs : Nat → Res (BitVec 64)) (reloc low s l : Nat)
    (hlow : 0 < low) (code : List Byte) (hc : code.length < 2 ^ 64) (hb : reloc + low + s + l < 2 ^ 64) (hl : 0 < l) (off : Nat) (rest : List Byte)
    (stack : List (BitVec 64)) (h : d.drop off = encodeList5 [.startLength s l code] ++ rest) :
    locate s low [.startLength s l code] = some code ∧
    evalList env 5 d addrs 8 off (BitVec.ofNat 64 reloc) (BitVec.ofNat 64 low) (BitVec.ofNat 64 (reloc + s)) stack = .ok 0 := by
  refine ⟨by simp [locate]; omega, ?_⟩
  have htail : (0x00#8 :: rest : List Byte) ≠ [] := by simp
  have hd : d.drop off = 0x08#8 :: (leBytes 8 s ++ (encodeU l ++ (encodeU code.length ++ (code ++ 0x00#8 :: rest)))) := by
    simpa [encodeList5, LocEntry.encode5] using h
  have h1 := drop_cons hd
  have h2 := drop_prefix h1
  have h3 := drop_prefix h2
  have h4 := drop_prefix h3
  have h5 := drop_prefix h4
  rw [leBytes_length] at h2 h3 h4 h5
  have hr := range_iff reloc low s (s + l) s (by omega) (by omega) (by omega)
  rw [BitVec.ofNat_add (x := s)] at hr
  have hcl : (BitVec.ofNat 64 code.length).toNat = code.length := by simp; omega
  obtain ⟨hk, _⟩ := skip_ok hw h4 htail
  have hll := congrArg List.length hd
  simp only [List.length_drop, List.length_append, List.length_cons] at hll
  obtain ⟨k, hk2⟩ : ∃ k, d.length + 1 = k + 1 + 1 := ⟨d.length - 1, by omega⟩
  unfold evalList
  simp only
  rw [if_pos (by decide), hk2]
  unfold searchV5 entryV5
  rw [Parse.bind_ok (getu8_prefix d _ _ off hd)]
  simp only [BitVec.toNat_ofNat, Nat.reducePow, Nat.reduceMod]
  rw [Parse.bind_ok (getuint_leBytes d _ (off + 1) 8 s (by decide) (by omega) h1), Parse.bind_ok (getuleb_of d _ l _ (by omega) hw h2),
    Parse.bind_ok (getuleb_of d _ _ _ hc hw h3)]
  rw [Parse.bind_ok (show getOffset _ = _ from rfl), ← BitVec.ofNat_add reloc low, if_neg (fun h => by have := hr.1 h; omega), hcl, Parse.bind_ok hk]
  show evalFound env d _ stack (searchV5 d addrs 8 _ _ (k + 1) _ _) = _
  unfold searchV5 entryV5
  rw [Parse.bind_ok (getu8_prefix d _ _ _ h5)]
  rfl

/-- C22, where it fails: kinds of entries that DWARF 5 defines but the code does not know stop the search with an error, even
if a later entry matches. -/
theorem C22_not_other_kinds (env : Expr.Env) (d : List Byte) (addrs : Nat → Res (BitVec 64)) (reloc low ip : BitVec 64) (k : Byte)
    (hk : k = 2 ∨ k = 3 ∨ k = 5 ∨ k = 7) (off : Nat) (rest : List Byte)
    (stack : List (BitVec 64)) (h : d.drop off = k :: rest) :
    evalList env 5 d addrs 8 off reloc low ip stack = .exc := by
  unfold evalList
  simp only
  rw [if_pos (by decide)]
  unfold searchV5 entryV5
  rw [Parse.bind_ok (getu8_prefix d _ _ off h)]
  rcases hk with rfl | rfl | rfl | rfl <;> rfl

/-- C22, where it fails: in .debug_loc a base address entry is taken for a range, and the two bytes after it for the length
of an expression; the list is misread from there on. Here a list that has an expression for address 0x2004 gives none. -/
theorem C22_not_v4_base (env : Expr.Env) (addrs : Nat → Res (BitVec 64)) (stack : List (BitVec 64)) :
    locate 0x2004 0 [.base 0x2000, .pair 4 8 [0x31#8]] = some [0x31#8] ∧
    evalList env 4 (encodeList4 [.base 0x2000, .pair 4 8 [0x31#8]]) addrs 8 0 0 0 0x2004 stack = .exc := by
  refine ⟨by simp [locate], ?_⟩
  have : searchV4 (encodeList4 [.base 0x2000, .pair 4 8 [0x31#8]]) 0x2004 0 ((encodeList4 [.base 0x2000, .pair 4 8 [0x31#8]]).length + 1) 0 = .exc := by
    decide +kernel
  unfold evalList
  simp only
  rw [if_neg (by decide), show ((0 : BitVec 64) + 0) = 0 from rfl, this]
  rfl

end Pstack.Props
