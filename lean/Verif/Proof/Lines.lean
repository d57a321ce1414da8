import Verif.Model.Lines
import Verif.Spec.Lines
import Verif.Proof.Cfa
import Verif.Props.Notes
/-
Line-number programs: the interpreter against the state machine.
-/
namespace Pstack.Props
open Pstack.Reader Pstack.Spec Pstack.Dwarf Pstack.Lines

/-- A row of the table built is the row of the state machine, in the registers of their C++ widths. The registers `prologue_end`,
`epilogue_begin` and `discriminator` are left out. -/
structure RowMatches (r : LineState) (s : LineRow) : Prop where
  file : r.file = s.file
  addr : r.addr = BitVec.ofNat 64 s.address
  line : r.line = BitVec.ofInt 32 s.line
  column : r.column = BitVec.ofNat 32 s.column
  isStmt : r.isStmt = s.isStmt
  basicBlock : r.basicBlock = s.basicBlock
  endSequence : r.endSequence = s.endSequence
  isa : r.isa = BitVec.ofNat 32 s.isa

/-- The header read has these parameters. -/
structure HdrIs (h : LineHdr) (p : LineParams) : Prop where
  minInsn : h.minInsnLength.toNat = p.minInsn
  lineBase : h.lineBase.toInt = p.lineBase
  lineRange : h.lineRange.toNat = p.lineRange
  opcodeBase : h.opcodeBase.toNat = p.opcodeBase
  isStmt : h.defaultIsStmt = p.defaultIsStmt
  addressSize : h.addressSize = p.addressSize

/-- Instructions pstack carries out as DWARF says: not those it does not know, and a fixed advance only if instructions are
measured in bytes. -/
def Supported (p : LineParams) : LineOp → Prop
  | .unknownStandard .. => False
  | .unknownExtended .. => False
  | .fixedAdvancePc _ => p.minInsn = 1
  | _ => True

theorem init_matches (h : LineHdr) (p : LineParams) (hp : HdrIs h p) (hf : 1 < h.files.length) :
    ∃ s, LineState.init h = .ok s ∧ RowMatches s (LineRow.init p) := by
  unfold LineState.init
  rw [if_pos hf]
  exact ⟨_, rfl, rfl, rfl, rfl, rfl, hp.isStmt, rfl, rfl, rfl⟩

theorem advance_one (p : LineParams) (h1 : p.maxOps = 1) (s : LineRow) (h0 : s.opIndex = 0) (n : Nat) :
    s.advance p n = { s with address := s.address + p.minInsn * n } := by
  unfold LineRow.advance
  rw [h1, h0, Nat.zero_add, Nat.div_one, Nat.mod_one]

theorem ofNat_mul_byte (n : Nat) (b : Byte) (m : Nat) (hb : b.toNat = m) :
    BitVec.ofNat 64 n * b.setWidth 64 = BitVec.ofNat 64 (m * n) := by
  apply BitVec.eq_of_toNat_eq
  rw [BitVec.toNat_mul, BitVec.toNat_setWidth, BitVec.toNat_ofNat, BitVec.toNat_ofNat, hb]
  have : b.toNat < 256 := b.isLt
  rw [Nat.mod_eq_of_lt (show m < 2 ^ 64 by omega), Nat.mod_mul_mod, Nat.mul_comm]

theorem ofNat_trunc (n : Nat) : (BitVec.ofNat 64 n).setWidth 32 = BitVec.ofNat 32 n := by
  apply BitVec.eq_of_toNat_eq
  simp only [BitVec.toNat_setWidth, BitVec.toNat_ofNat]
  omega

theorem ofInt_trunc (n : Int) : (BitVec.ofInt 64 n).setWidth 32 = BitVec.ofInt 32 n := by
  apply BitVec.eq_of_toNat_eq
  simp only [BitVec.toNat_setWidth, BitVec.toNat_ofInt]
  omega

theorem leb_step (d rest : List Byte) (n off : Nat) (hn : n < 2 ^ 64) (hw : d.length < W64) (h : d.drop off = encodeU n ++ rest) :
    getuleb128 d off = .ok (BitVec.ofNat 64 n, off + (encodeU n).length) ∧ d.drop (off + (encodeU n).length) = rest :=
  ⟨ulebN d rest n hn off h hw, drop_prefix h⟩

/-- One instruction. -/
theorem lineOne_op (d rest : List Byte) (hw : d.length < W64) (h : LineHdr) (p : LineParams) (hwf : p.WF) (hp : HdrIs h p)
    (hone : p.maxOps = 1) (hfiles : 1 < h.files.length) (o : LineOp) (ho : o.WF p h.files.length) (hs : Supported p o)
    (r : LineState) (s : LineRow) (hr : RowMatches r s) (h0 : s.opIndex = 0) (off : Nat) (hd : d.drop off = o.encode p ++ rest) :
    ∃ r' rows, lineOne d h r off = .ok ((r', rows), off + (o.encode p).length) ∧ RowMatches r' (o.step p s).1 ∧
      (o.step p s).1.opIndex = 0 ∧ Each RowMatches rows (o.step p s).2 := by
  obtain ⟨w1, w2, w3, w4, w5, w6, w7, w8, w9⟩ := hwf
  obtain ⟨p1, p2, p3, p4, p5, p6⟩ := hp
  obtain ⟨m1, m2, m3, m4, m5, m6, m7, m8⟩ := hr
  have hrange : h.lineRange ≠ 0#8 := by
    intro he; rw [he] at p3; simp at p3; omega
  -- a standard instruction
  have std : ∀ (n : Nat) (tail : List Byte), d.drop off = BitVec.ofNat 8 n :: tail → 1 ≤ n → n < 256 → n < p.opcodeBase →
      lineOne d h r off = standard d h r n (off + 1) ∧ d.drop (off + 1) = tail := by
    intro n tail hd h1 h256 hn
    refine ⟨?_, drop_cons hd⟩
    have e : (BitVec.ofNat 8 n).toNat = n := by rw [BitVec.toNat_ofNat]; omega
    unfold lineOne
    rw [Parse.bind_ok (getu8_prefix d tail _ off hd), e, if_neg (by omega), if_neg ?_]
    intro he
    rw [he] at e; simp at e; omega
  have ext : ∀ (l : Nat) (c : Byte) (tail : List Byte), d.drop off = 0#8 :: (encodeU l ++ c :: tail) → l < 2 ^ 64 →
      d.drop (off + 1 + (encodeU l).length + 1) = tail ∧
      lineOne d h r off = (match c.toNat with
        | 1 => (do
            let i ← lift (LineState.init h)
            pure (i, [{ r with endSequence := true }]))
        | 2 => (do
            let a ← getuint d h.addressSize
            pure ({ r with addr := a }, []))
        | 4 => (do
            let n ← getuleb128 d
            pure ({ r with discriminator := n.setWidth 32 }, []))
        | _ => throwExc : Parse Eff) (off + 1 + (encodeU l).length + 1) := by
    intro l c tail hd hl
    have hd1 := drop_cons hd
    obtain ⟨g1, g2⟩ := leb_step d _ l (off + 1) hl hw hd1
    refine ⟨drop_cons g2, ?_⟩
    unfold lineOne
    rw [Parse.bind_ok (getu8_prefix d _ _ off hd), if_neg (by simp; omega), if_pos rfl]
    unfold extended
    rw [Parse.bind_ok g1, Parse.bind_ok (getu8_prefix d _ _ _ g2)]
    rfl
  cases o with
  | special op =>
    obtain ⟨o1, o2⟩ := ho
    have e : (BitVec.ofNat 8 op).toNat = op := by rw [BitVec.toNat_ofNat]; omega
    have hm : RowMatches { r with
        addr := r.addr + BitVec.ofNat 64 ((op - p.opcodeBase) / p.lineRange * p.minInsn),
        line := r.line + (BitVec.ofNat 32 ((op - p.opcodeBase) % p.lineRange) + h.lineBase.signExtend 32) }
        { s with address := s.address + p.minInsn * ((op - p.opcodeBase) / p.lineRange),
                 line := s.line + (p.lineBase + ((op - p.opcodeBase) % p.lineRange : Nat)) } := by
      refine ⟨m1, ?_, ?_, m4, m5, m6, m7, m8⟩
      · dsimp only
        rw [m2, BitVec.ofNat_add, Nat.mul_comm p.minInsn]
      · dsimp only
        rw [m3, BitVec.ofInt_add, BitVec.ofInt_add, BitVec.ofInt_natCast, BitVec.signExtend, p2,
          BitVec.add_comm (BitVec.ofInt 32 p.lineBase)]
    dsimp only [LineOp.step]
    rw [advance_one p hone s h0]
    refine ⟨{ r with
        addr := r.addr + BitVec.ofNat 64 ((op - p.opcodeBase) / p.lineRange * p.minInsn),
        line := r.line + (BitVec.ofNat 32 ((op - p.opcodeBase) % p.lineRange) + h.lineBase.signExtend 32),
        basicBlock := false }, _, ?_, ⟨hm.1, hm.2, hm.3, hm.4, hm.5, rfl, hm.7, hm.8⟩, h0, .cons hm .nil⟩
    unfold lineOne
    rw [Parse.bind_ok (getu8_prefix d rest _ off hd), e, if_pos (by omega)]
    unfold special
    rw [if_neg hrange, p3, p1, p4]
    rfl
  | copy =>
    obtain ⟨g, _⟩ := std 1 rest hd (by decide) (by decide) ho
    exact ⟨{ r with basicBlock := false }, [r], by rw [g]; rfl, ⟨m1, m2, m3, m4, m5, rfl, m7, m8⟩, h0, .cons ⟨m1, m2, m3, m4, m5, m6, m7, m8⟩ .nil⟩
  | advancePc n =>
    obtain ⟨g, gd⟩ := std 2 _ hd (by decide) (by decide) ho.1
    obtain ⟨g1, _⟩ := leb_step d _ n _ ho.2 hw gd
    refine ⟨{ r with addr := r.addr + BitVec.ofNat 64 n * h.minInsnLength.setWidth 64 }, [], ?_, ?_, ?_, ?_⟩
    · rw [g]; show (getuleb128 d >>= _) _ = _
      rw [Parse.bind_ok g1]; simp only [LineOp.encode, List.length_cons]; rw [Nat.add_right_comm]; rfl
    · dsimp only [LineOp.step]
      rw [advance_one p hone s h0]
      refine ⟨m1, ?_, m3, m4, m5, m6, m7, m8⟩
      dsimp only
      rw [m2, ofNat_mul_byte n _ _ p1, BitVec.ofNat_add]
    · dsimp only [LineOp.step]
      rw [advance_one p hone s h0]; exact h0
    · exact .nil
  | advanceLine n =>
    obtain ⟨g, gd⟩ := std 3 _ hd (by decide) (by decide) ho.1
    have g1 := slebI d _ n ho.2.1 ho.2.2 _ gd hw
    refine ⟨{ r with line := r.line + (BitVec.ofInt 64 n).setWidth 32 }, [], ?_, ?_, h0, .nil⟩
    · rw [g]; show (getsleb128 d >>= _) _ = _
      rw [Parse.bind_ok g1]; simp only [LineOp.encode, List.length_cons]; rw [Nat.add_right_comm]; rfl
    · refine ⟨m1, m2, ?_, m4, m5, m6, m7, m8⟩
      dsimp only [LineOp.step]
      rw [m3, ofInt_trunc, BitVec.ofInt_add]
  | setFile n =>
    obtain ⟨g, gd⟩ := std 4 _ hd (by decide) (by decide) ho.1
    obtain ⟨g1, _⟩ := leb_step d _ n _ ho.2.2 hw gd
    have en : (BitVec.ofNat 64 n).toNat = n := by rw [BitVec.toNat_ofNat]; exact Nat.mod_eq_of_lt ho.2.2
    refine ⟨{ r with file := n }, [], ?_, ⟨rfl, m2, m3, m4, m5, m6, m7, m8⟩, h0, .nil⟩
    rw [g]; show (getuleb128 d >>= _) _ = _
    rw [Parse.bind_ok g1, en, if_pos ho.2.1]; simp only [LineOp.encode, List.length_cons]; rw [Nat.add_right_comm]; rfl
  | setColumn n =>
    obtain ⟨g, gd⟩ := std 5 _ hd (by decide) (by decide) ho.1
    obtain ⟨g1, _⟩ := leb_step d _ n _ ho.2 hw gd
    refine ⟨{ r with column := (BitVec.ofNat 64 n).setWidth 32 }, [], ?_, ⟨m1, m2, m3, ofNat_trunc n, m5, m6, m7, m8⟩, h0, .nil⟩
    rw [g]; show (getuleb128 d >>= _) _ = _
    rw [Parse.bind_ok g1]; simp only [LineOp.encode, List.length_cons]; rw [Nat.add_right_comm]; rfl
  | negateStmt =>
    obtain ⟨g, _⟩ := std 6 rest hd (by decide) (by decide) ho
    exact ⟨{ r with isStmt := !r.isStmt }, [], by rw [g]; rfl, ⟨m1, m2, m3, m4, by dsimp only [LineOp.step]; rw [m5], m6, m7, m8⟩, h0, .nil⟩
  | setBasicBlock =>
    obtain ⟨g, _⟩ := std 7 rest hd (by decide) (by decide) ho
    exact ⟨{ r with basicBlock := true }, [], by rw [g]; rfl, ⟨m1, m2, m3, m4, m5, rfl, m7, m8⟩, h0, .nil⟩
  | constAddPc =>
    obtain ⟨g, _⟩ := std 8 rest hd (by decide) (by decide) ho
    refine ⟨advanceBy r ((255 - p.opcodeBase) / p.lineRange * p.minInsn), [], ?_, ?_, ?_, .nil⟩
    · rw [g]; show (if h.lineRange = 0#8 then undef else _ : Parse Eff) _ = _; rw [if_neg hrange, p4, p3, p1]; rfl
    · dsimp only [LineOp.step]
      rw [advance_one p hone s h0]
      refine ⟨m1, ?_, m3, m4, m5, m6, m7, m8⟩
      dsimp only [advanceBy]
      rw [m2, BitVec.ofNat_add, Nat.mul_comm p.minInsn]
    · dsimp only [LineOp.step]
      rw [advance_one p hone s h0]; exact h0
  | fixedAdvancePc n =>
    obtain ⟨g, gd⟩ := std 9 _ hd (by decide) (by decide) ho.1
    have en : (BitVec.ofNat 16 n).toNat = n := by rw [BitVec.toNat_ofNat]; exact Nat.mod_eq_of_lt ho.2
    have g1 := getu16_prefix d rest (BitVec.ofNat 16 n) (off + 1) (by rw [en]; exact gd)
    refine ⟨advanceBy r n, [], ?_, ?_, rfl, .nil⟩
    · rw [g]; show (getu16 d >>= _) _ = _
      rw [Parse.bind_ok g1, en, p1, show p.minInsn = 1 from hs, Nat.mul_one]
      simp only [LineOp.encode, leBytes_length, List.length_cons]; rfl
    · refine ⟨m1, ?_, m3, m4, m5, m6, m7, m8⟩
      dsimp only [advanceBy, LineOp.step]
      rw [m2, BitVec.ofNat_add]
  | setPrologueEnd =>
    obtain ⟨g, _⟩ := std 10 rest hd (by decide) (by decide) ho
    exact ⟨{ r with prologueEnd := true }, [], by rw [g]; rfl, ⟨m1, m2, m3, m4, m5, m6, m7, m8⟩, h0, .nil⟩
  | setEpilogueBegin =>
    obtain ⟨g, _⟩ := std 11 rest hd (by decide) (by decide) ho
    exact ⟨{ r with epilogueBegin := true }, [], by rw [g]; rfl, ⟨m1, m2, m3, m4, m5, m6, m7, m8⟩, h0, .nil⟩
  | setIsa n =>
    obtain ⟨g, gd⟩ := std 12 _ hd (by decide) (by decide) ho.1
    obtain ⟨g1, _⟩ := leb_step d _ n _ ho.2 hw gd
    refine ⟨{ r with isa := (BitVec.ofNat 64 n).setWidth 32 }, [], ?_, ⟨m1, m2, m3, m4, m5, m6, m7, ofNat_trunc n⟩, h0, .nil⟩
    rw [g]; show (getuleb128 d >>= _) _ = _
    rw [Parse.bind_ok g1]; simp only [LineOp.encode, List.length_cons]; rw [Nat.add_right_comm]; rfl
  | endSequence =>
    have e1 : encodeU 1 = [1#8] := by rw [encodeU]; simp
    obtain ⟨_, g⟩ := ext 1 1#8 rest (by rw [hd, e1]; rfl) (by decide)
    obtain ⟨i, i1, i2⟩ := init_matches h p ⟨p1, p2, p3, p4, p5, p6⟩ hfiles
    refine ⟨i, [{ r with endSequence := true }], ?_, i2, rfl, .cons ⟨m1, m2, m3, m4, m5, m6, rfl, m8⟩ .nil⟩
    rw [g]
    show (lift (LineState.init h) >>= _) _ = _
    rw [Parse.bind_ok (p := lift (LineState.init h)) (a := i) (by unfold lift; rw [i1, Res.bind_ok]), e1]; rfl
  | setAddress a =>
    obtain ⟨gd, g⟩ := ext (1 + p.addressSize) 2#8 (leBytes p.addressSize a ++ rest) (by rw [hd]; simp [LineOp.encode]) (by omega)
    have g1 := getuint_prefix d (leBytes p.addressSize a) rest _ gd (by rw [leBytes_length]; omega)
    rw [leBytes_length, leNat_leBytes, Nat.mod_eq_of_lt ho] at g1
    refine ⟨{ r with addr := BitVec.ofNat 64 a }, [], ?_, ⟨m1, rfl, m3, m4, m5, m6, m7, m8⟩, rfl, .nil⟩
    rw [g]
    show (getuint d h.addressSize >>= _) _ = _
    rw [p6, Parse.bind_ok g1]
    simp only [LineOp.encode, leBytes_length, List.length_cons, List.length_append]
    show Res.ok _ = _
    congr 2
    omega
  | setDiscriminator n =>
    have hl : (encodeU n).length ≤ 10 := encodeU_length 10 n (Nat.lt_of_lt_of_le ho (by decide)) (by decide)
    obtain ⟨gd, g⟩ := ext (1 + (encodeU n).length) 4#8 (encodeU n ++ rest) (by rw [hd]; simp [LineOp.encode]) (by omega)
    obtain ⟨g1, _⟩ := leb_step d _ n _ ho hw gd
    refine ⟨{ r with discriminator := (BitVec.ofNat 64 n).setWidth 32 }, [], ?_, ⟨m1, m2, m3, m4, m5, m6, m7, m8⟩, h0, .nil⟩
    rw [g]
    show (getuleb128 d >>= _) _ = _
    rw [Parse.bind_ok g1]
    simp only [LineOp.encode, List.length_cons, List.length_append]
    show Res.ok _ = _
    congr 2
    omega
  | unknownStandard => exact hs.elim
  | unknownExtended => exact hs.elim

theorem op_ne_nil (p : LineParams) (o : LineOp) : o.encode p ≠ [] := by cases o <;> simp [LineOp.encode]

/-- The program. -/
theorem lineLoop_ops (d rest : List Byte) (hw : d.length < W64) (h : LineHdr) (p : LineParams) (hwf : p.WF) (hp : HdrIs h p)
    (hone : p.maxOps = 1) (hfiles : 1 < h.files.length) (ops : List LineOp) : ∀ (fuel : Nat) (r : LineState) (s : LineRow) (off : Nat),
    (∀ o ∈ ops, o.WF p h.files.length ∧ Supported p o) → RowMatches r s → s.opIndex = 0 → ops.length < fuel →
    d.drop off = (ops.map (LineOp.encode p)).flatten ++ rest →
    ∃ rows, lineLoop d h (off + ((ops.map (LineOp.encode p)).flatten).length) fuel r off = .ok rows ∧ Each RowMatches rows (lineRows p s ops) := by
  induction ops with
  | nil =>
    intro fuel r s off _ _ _ hf _
    obtain ⟨f, rfl⟩ : ∃ f, fuel = f + 1 := ⟨fuel - 1, by omega⟩
    refine ⟨[], ?_, .nil⟩
    rw [lineLoop, if_neg (by simp)]
  | cons o ops ih =>
    intro fuel r s off ho hr h0 hf hd
    obtain ⟨f, rfl⟩ : ∃ f, fuel = f + 1 := ⟨fuel - 1, by omega⟩
    rw [List.map_cons, List.flatten_cons, List.append_assoc] at hd
    obtain ⟨r', rows, g1, g2, g3, g4⟩ := lineOne_op d _ hw h p hwf hp hone hfiles o (ho o (by simp)).1 (ho o (by simp)).2 r s hr h0 off hd
    obtain ⟨more, k1, k2⟩ := ih f r' _ _ (fun x hx => ho x (by simp [hx])) g2 g3 (by simp at hf; omega) (drop_prefix hd)
    refine ⟨rows ++ more, ?_, ?_⟩
    · have hpos := List.length_pos_iff.2 (op_ne_nil p o)
      rw [List.map_cons, List.flatten_cons, List.length_append]
      rw [lineLoop, if_pos (by omega), g1, Res.bind_ok]
      dsimp only
      rw [← Nat.add_assoc, k1]; rfl
    · rw [lineRows]
      exact Each.append g4 k2

end Pstack.Props
