import Verif.Proof.Frame
import Verif.Spec.CfaMeaning
set_option linter.unusedSimpArgs false
namespace Pstack.Dwarf
open Pstack.Reader Pstack.Spec

def StackRel (d : List Byte) : List CallFrame → List Row → Prop
  | [], [] => True
  | f :: fs, r :: rs => Holds d f r ∧ StackRel d fs rs
  | _, _ => False

structure StRel (d : List Byte) (st : ExecState) (s : TabState) : Prop where
  loc : st.addr.toNat = s.loc
  row : Holds d st.frame s.row
  stack : StackRel d st.stack s.stack

theorem holds_init (d : List Byte) : Holds d CallFrame.init Row.init := by
  refine ⟨rfl, fun r => rfl⟩

theorem get_set (f : CallFrame) (r x : BitVec 32) (v : RegUnwind) :
    (f.set r v).get x = if x = r then v else f.get x := by
  unfold CallFrame.get CallFrame.set
  dsimp only
  split <;> rfl

theorem holds_set {d : List Byte} {f : CallFrame} {row : Row} (h : Holds d f row) (r : BitVec 32) (v : RegUnwind) (rule : Rule)
    (hv : Denotes d v rule) : Holds d (f.set r v) (row.set r rule) := by
  refine ⟨?_, fun x => ?_⟩
  · have := h.1
    unfold Row.set CallFrame.set
    cases hc : row.cfa <;> rw [hc] at this <;> exact this
  · rw [get_set]
    unfold Row.set
    dsimp only
    split
    · exact hv
    · exact h.2 x

theorem restoreReg_eq (df f : CallFrame) (r : BitVec 32) : restoreReg df f r = f.set r (df.get r) := by
  unfold restoreReg CallFrame.get
  cases df.registers r <;> rfl

theorem low_ops (a b : Nat) (ha : a < 64) (hb : b < 4) :
    let e := BitVec.ofNat 8 (64 * b + a)
    (e &&& 0xc0#8).toNat = 64 * b ∧ (e &&& 0x3f#8).toNat = a ∧ ((e &&& 0x3f#8).setWidth 32) = BitVec.ofNat 32 a := by
  have : ∀ (a : Fin 64) (b : Fin 4),
      let e := BitVec.ofNat 8 (64 * b.1 + a.1)
      (e &&& 0xc0#8).toNat = 64 * b.1 ∧ (e &&& 0x3f#8).toNat = a.1 ∧ ((e &&& 0x3f#8).setWidth 32) = BitVec.ofNat 32 a.1 := by
    decide +kernel
  exact this ⟨a, ha⟩ ⟨b, hb⟩

theorem advance_rel (cie : CIE) (k : Factors) (hk : cie.codeAlign.toNat = k.code) (addr : BitVec 64) (s s' : TabState)
    (h : addr.toNat = s.loc) (delta : Nat) (hd : delta < 2 ^ 32) (hs : s.advance k delta = some s') :
    (advance cie addr (BitVec.ofNat 32 delta)).toNat = s'.loc ∧ s'.row = s.row ∧ s'.stack = s.stack := by
  unfold TabState.advance at hs
  split at hs
  · rename_i hc
    simp only [Option.some.injEq] at hs
    subst hs
    refine ⟨?_, rfl, rfl⟩
    unfold advance
    have e : (BitVec.ofNat 32 delta * cie.codeAlign).toNat = delta * k.code := by
      rw [BitVec.toNat_mul, BitVec.toNat_ofNat, hk, Nat.mod_eq_of_lt hd]
      exact Nat.mod_eq_of_lt hc.1
    rw [BitVec.toNat_add, BitVec.toNat_setWidth, e, h]
    dsimp only
    have := hc.1
    rw [Nat.mod_eq_of_lt (show delta * k.code < 2 ^ 64 by omega)]
    exact Nat.mod_eq_of_lt hc.2
  · simp at hs

theorem uleb32 (d rest : List Byte) (r : BitVec 32) (off : Nat) (h : d.drop off = encodeU r.toNat ++ rest) (hw : d.length < W64) :
    getuleb128 d off = .ok (r.setWidth 64, off + (encodeU r.toNat).length) := by
  have e : (r.setWidth 64).toNat = r.toNat := by
    rw [BitVec.toNat_setWidth]; exact Nat.mod_eq_of_lt (by omega)
  have := getuleb_prefix d rest (r.setWidth 64) off (by rw [e]; exact h) hw
  rwa [e] at this

theorem ulebN (d rest : List Byte) (n : Nat) (hn : n < 2 ^ 64) (off : Nat) (h : d.drop off = encodeU n ++ rest) (hw : d.length < W64) :
    getuleb128 d off = .ok (BitVec.ofNat 64 n, off + (encodeU n).length) := by
  have e : (BitVec.ofNat 64 n).toNat = n := by
    rw [BitVec.toNat_ofNat]; exact Nat.mod_eq_of_lt (by omega)
  have := getuleb_prefix d rest (BitVec.ofNat 64 n) off (by rw [e]; exact h) hw
  rwa [e] at this

theorem slebI (d rest : List Byte) (n : Int) (h1 : -2 ^ 63 ≤ n) (h2 : n < 2 ^ 63) (off : Nat)
    (h : d.drop off = encodeS n ++ rest) (hw : d.length < W64) :
    getsleb128 d off = .ok (BitVec.ofInt 64 n, off + (encodeS n).length) := by
  have e : (BitVec.ofInt 64 n).toInt = n := by
    rw [BitVec.toInt_ofInt]; apply Int.bmod_eq_of_le <;> omega
  have := getsleb_prefix d rest (BitVec.ofInt 64 n) off (by rw [e]; exact h) hw
  rwa [e] at this

theorem set32_64 (r : BitVec 32) : (r.setWidth 64).setWidth 32 = r := by
  apply BitVec.eq_of_toNat_eq; simp

theorem mul_align (cie : CIE) (k : Factors) (hk : cie.dataAlign.toInt = k.data) (n : Int) :
    BitVec.ofInt 64 n * cie.dataAlign64 = BitVec.ofInt 64 (n * k.data) := by
  unfold CIE.dataAlign64
  rw [BitVec.ofInt_mul, BitVec.signExtend, hk]

theorem mul_alignN (cie : CIE) (k : Factors) (hk : cie.dataAlign.toInt = k.data) (n : Nat) :
    BitVec.ofNat 64 n * cie.dataAlign64 = BitVec.ofInt 64 (n * k.data) := by
  rw [← mul_align cie k hk, BitVec.ofInt_natCast]

theorem skip_expr (d c rest : List Byte) (off : Nat) (hw : d.length < W64) (h : d.drop off = encodeU c.length ++ (c ++ rest)) :
    getuleb128 d off = .ok (BitVec.ofNat 64 c.length, off + (encodeU c.length).length) ∧
    skip (BitVec.ofNat 64 c.length).toNat (off + (encodeU c.length).length) =
      .ok ((), off + (encodeU c.length).length + c.length) ∧
    BytesAt d (BitVec.ofNat 64 (off + (encodeU c.length).length)) (BitVec.ofNat 64 c.length) c := by
  have hne : encodeU c.length ≠ [] := by rw [encodeU]; split <;> simp
  have hle := off_le_of_drop (bs := encodeU c.length ++ c) (by simpa using h) (fun he => hne (List.append_eq_nil_iff.1 he).1)
  rw [List.length_append] at hle
  have hc : c.length < 2 ^ 64 := by rw [← W64_eq]; omega
  have e : (BitVec.ofNat 64 c.length).toNat = c.length := by
    rw [BitVec.toNat_ofNat]; exact Nat.mod_eq_of_lt hc
  have e2 : (BitVec.ofNat 64 (off + (encodeU c.length).length)).toNat = off + (encodeU c.length).length := by
    rw [BitVec.toNat_ofNat]; apply Nat.mod_eq_of_lt; rw [← W64_eq]; omega
  refine ⟨ulebN d _ _ hc off h hw, ?_, ?_⟩
  · unfold skip; rw [e, Nat.mod_eq_of_lt (by omega)]
  · refine ⟨e, ?_⟩
    rw [e2, drop_prefix h]; simp

theorem StRel.withRow {d : List Byte} {st : ExecState} {s : TabState} (h : StRel d st s) {f : CallFrame} {row : Row}
    (hr : Holds d f row) : StRel d { st with frame := f } { s with row := row } := ⟨h.loc, hr, h.stack⟩

theorem holds_cfa {d : List Byte} {f : CallFrame} {row : Row} (h : Holds d f row) {reg : BitVec 32} {v : RegUnwind} {c : CfaRule}
    (hc : DenotesCfa d { f with cfaReg := reg, cfaValue := v } c) :
    Holds d { f with cfaReg := reg, cfaValue := v } { row with cfa := c } := ⟨hc, h.2⟩

theorem drop_cons {d rest : List Byte} {b : Byte} {off : Nat} (h : d.drop off = b :: rest) : d.drop (off + 1) = rest :=
  drop_prefix (bs := [b]) h

theorem execOne_insn (d rest : List Byte) (hw : d.length < W64) (cie : CIE) (k : Factors)
    (hk1 : cie.codeAlign.toNat = k.code) (hk2 : cie.dataAlign.toInt = k.data)
    (df : CallFrame) (ini : Row) (hini : Holds d df ini)
    (st : ExecState) (s s' : TabState) (hs : StRel d st s) (i : Insn) (hi : i.WF) (off : Nat)
    (h : d.drop off = i.encode ++ rest) (hstep : s.step k ini i = some s') :
    ∃ st', execOne d cie df st off = .ok (st', off + i.encode.length) ∧ StRel d st' s' := by
  unfold execOne
  cases i with
  | nop =>
    simp only [Insn.encode, List.cons_append, List.nil_append, List.append_assoc] at h
    simp only [TabState.step, Option.some.injEq] at hstep
    subst hstep
    have h1 := drop_cons h
    rw [Parse.bind_ok (getu8_prefix d _ _ off h)]
    simp only [execOp, BitVec.reduceAnd, BitVec.reduceToNat]
    rw [Parse.pure_apply]
    refine ⟨_, by simp only [Insn.encode, List.length_cons, List.length_append, List.length_nil, leBytes_length]; congr 2 <;> omega, ?_⟩
    exact hs
  | setLoc a =>
    simp only [Insn.encode, List.cons_append, List.nil_append, List.append_assoc] at h
    simp only [TabState.step] at hstep
    have h1 := drop_cons h
    rw [Parse.bind_ok (getu8_prefix d _ _ off h)]
    simp only [execOp, BitVec.reduceAnd, BitVec.reduceToNat]
    rw [Parse.bind_ok (getuint_leBytes d _ (off + 1) 8 a (by decide) hi h1)]
    rw [Parse.pure_apply]
    refine ⟨_, by simp only [Insn.encode, List.length_cons, List.length_append, List.length_nil, leBytes_length]; congr 2 <;> omega, ?_⟩
    split at hstep
    · simp only [Option.some.injEq] at hstep
      subst hstep
      refine ⟨?_, hs.row, hs.stack⟩
      show (BitVec.ofNat 64 a).toNat = a
      rw [BitVec.toNat_ofNat]; exact Nat.mod_eq_of_lt hi
    · simp at hstep
  | advance delta =>
    simp only [Insn.encode, List.cons_append, List.nil_append] at h
    rw [Parse.bind_ok (getu8_prefix d _ _ off h)]
    obtain ⟨l1, -, l3⟩ := low_ops delta 1 hi (by decide)
    simp only [Nat.mul_one] at l1 l3
    simp only [execOp, l1, l3]
    rw [Parse.pure_apply]
    obtain ⟨a1, a2, a3⟩ := advance_rel cie k hk1 st.addr s s' hs.loc delta (by have : delta < 64 := hi; omega) hstep
    exact ⟨_, rfl, a1, a2 ▸ hs.row, a3 ▸ hs.stack⟩
  | advance1 delta =>
    have hi' : delta < 256 := hi
    have hb : leBytes 1 delta = [BitVec.ofNat 8 delta] := by
      simp only [leBytes]; rw [Nat.mod_eq_of_lt hi']
    simp only [Insn.encode, hb, List.cons_append, List.nil_append] at h
    have h1 := drop_cons h
    rw [Parse.bind_ok (getu8_prefix d _ _ off h)]
    simp only [execOp, BitVec.reduceAnd, BitVec.reduceToNat]
    rw [Parse.bind_ok (getu8_prefix d _ _ (off + 1) h1), Parse.pure_apply]
    have e : (BitVec.ofNat 8 delta).setWidth 32 = BitVec.ofNat 32 delta := by
      apply BitVec.eq_of_toNat_eq; simp; omega
    rw [e]
    obtain ⟨a1, a2, a3⟩ := advance_rel cie k hk1 st.addr s s' hs.loc delta (by omega) hstep
    exact ⟨_, rfl, a1, a2 ▸ hs.row, a3 ▸ hs.stack⟩
  | advance2 delta =>
    have hi' : delta < 2 ^ 16 := hi
    simp only [Insn.encode, List.cons_append, List.nil_append] at h
    have h1 := drop_cons h
    rw [Parse.bind_ok (getu8_prefix d _ _ off h)]
    simp only [execOp, BitVec.reduceAnd, BitVec.reduceToNat]
    have e0 : (BitVec.ofNat 16 delta).toNat = delta := by
      rw [BitVec.toNat_ofNat]; exact Nat.mod_eq_of_lt hi'
    rw [Parse.bind_ok (getu16_prefix d _ (BitVec.ofNat 16 delta) (off + 1) (by rw [e0]; exact h1)), Parse.pure_apply]
    have e : (BitVec.ofNat 16 delta).setWidth 32 = BitVec.ofNat 32 delta := by
      apply BitVec.eq_of_toNat_eq; simp; omega
    rw [e]
    obtain ⟨a1, a2, a3⟩ := advance_rel cie k hk1 st.addr s s' hs.loc delta (by omega) hstep
    exact ⟨_, rfl, a1, a2 ▸ hs.row, a3 ▸ hs.stack⟩
  | advance4 delta =>
    have hi' : delta < 2 ^ 32 := hi
    simp only [Insn.encode, List.cons_append, List.nil_append] at h
    have h1 := drop_cons h
    rw [Parse.bind_ok (getu8_prefix d _ _ off h)]
    simp only [execOp, BitVec.reduceAnd, BitVec.reduceToNat]
    have e0 : (BitVec.ofNat 32 delta).toNat = delta := by
      rw [BitVec.toNat_ofNat]; exact Nat.mod_eq_of_lt hi'
    rw [Parse.bind_ok (getu32_prefix d _ (BitVec.ofNat 32 delta) (off + 1) (by rw [e0]; exact h1)), Parse.pure_apply]
    obtain ⟨a1, a2, a3⟩ := advance_rel cie k hk1 st.addr s s' hs.loc delta (by omega) hstep
    exact ⟨_, rfl, a1, a2 ▸ hs.row, a3 ▸ hs.stack⟩
  | offset r n =>
    simp only [Insn.encode, List.cons_append, List.nil_append] at h
    simp only [TabState.step, Option.some.injEq] at hstep
    subst hstep
    have h1 := drop_cons h
    rw [Parse.bind_ok (getu8_prefix d _ _ off h)]
    obtain ⟨l1, -, l3⟩ := low_ops r 2 hi.1 (by decide)
    simp only [Nat.reduceMul] at l1 l3
    simp only [execOp, l1, l3]
    rw [Parse.bind_ok (ulebN d _ n hi.2 (off + 1) h1 hw), Parse.pure_apply]
    refine ⟨_, by simp only [Insn.encode, List.length_cons, List.length_append, List.length_nil, leBytes_length]; congr 2 <;> omega, ?_⟩
    rw [mul_alignN cie k hk2]
    exact hs.withRow (holds_set hs.row _ _ _ ⟨rfl, rfl⟩)
  | offsetExt r n =>
    simp only [Insn.encode, List.cons_append, List.nil_append, List.append_assoc] at h
    simp only [TabState.step, Option.some.injEq] at hstep
    subst hstep
    have h1 := drop_cons h
    have h2 := drop_prefix h1
    rw [Parse.bind_ok (getu8_prefix d _ _ off h)]
    simp only [execOp, BitVec.reduceAnd, BitVec.reduceToNat]
    rw [Parse.bind_ok (uleb32 d _ _ (off + 1) h1 hw), Parse.bind_ok (ulebN d _ n hi _ h2 hw)]
    rw [Parse.pure_apply]
    refine ⟨_, by simp only [Insn.encode, List.length_cons, List.length_append, List.length_nil, leBytes_length]; congr 2 <;> omega, ?_⟩
    rw [set32_64, mul_alignN cie k hk2]
    exact hs.withRow (holds_set hs.row _ _ _ ⟨rfl, rfl⟩)
  | offsetExtSf r n =>
    simp only [Insn.encode, List.cons_append, List.nil_append, List.append_assoc] at h
    simp only [TabState.step, Option.some.injEq] at hstep
    subst hstep
    have h1 := drop_cons h
    have h2 := drop_prefix h1
    rw [Parse.bind_ok (getu8_prefix d _ _ off h)]
    simp only [execOp, BitVec.reduceAnd, BitVec.reduceToNat]
    rw [Parse.bind_ok (uleb32 d _ _ (off + 1) h1 hw), Parse.bind_ok (slebI d _ n hi.1 hi.2 _ h2 hw)]
    rw [Parse.pure_apply]
    refine ⟨_, by simp only [Insn.encode, List.length_cons, List.length_append, List.length_nil, leBytes_length]; congr 2 <;> omega, ?_⟩
    rw [set32_64, mul_align cie k hk2]
    exact hs.withRow (holds_set hs.row _ _ _ ⟨rfl, rfl⟩)
  | restore r =>
    simp only [Insn.encode, List.cons_append, List.nil_append] at h
    simp only [TabState.step, Option.some.injEq] at hstep
    subst hstep
    rw [Parse.bind_ok (getu8_prefix d _ _ off h)]
    obtain ⟨l1, -, l3⟩ := low_ops r 3 hi (by decide)
    simp only [Nat.reduceMul] at l1 l3
    simp only [execOp, l1, l3]
    rw [Parse.pure_apply]
    refine ⟨_, rfl, ?_⟩
    rw [restoreReg_eq]
    exact hs.withRow (holds_set hs.row _ _ _ (hini.2 _))
  | restoreExt r =>
    simp only [Insn.encode, List.cons_append, List.nil_append, List.append_assoc] at h
    simp only [TabState.step, Option.some.injEq] at hstep
    subst hstep
    have h1 := drop_cons h
    rw [Parse.bind_ok (getu8_prefix d _ _ off h)]
    simp only [execOp, BitVec.reduceAnd, BitVec.reduceToNat]
    rw [Parse.bind_ok (uleb32 d _ _ (off + 1) h1 hw)]
    rw [Parse.pure_apply]
    refine ⟨_, by simp only [Insn.encode, List.length_cons, List.length_append, List.length_nil, leBytes_length]; congr 2 <;> omega, ?_⟩
    rw [set32_64, restoreReg_eq]
    exact hs.withRow (holds_set hs.row _ _ _ (hini.2 _))
  | undefined r =>
    simp only [Insn.encode, List.cons_append, List.nil_append, List.append_assoc] at h
    simp only [TabState.step, Option.some.injEq] at hstep
    subst hstep
    have h1 := drop_cons h
    rw [Parse.bind_ok (getu8_prefix d _ _ off h)]
    simp only [execOp, BitVec.reduceAnd, BitVec.reduceToNat]
    rw [Parse.bind_ok (uleb32 d _ _ (off + 1) h1 hw)]
    rw [Parse.pure_apply]
    refine ⟨_, by simp only [Insn.encode, List.length_cons, List.length_append, List.length_nil, leBytes_length]; congr 2 <;> omega, ?_⟩
    rw [set32_64]
    exact hs.withRow (holds_set hs.row _ _ _ rfl)
  | sameValue r =>
    simp only [Insn.encode, List.cons_append, List.nil_append, List.append_assoc] at h
    simp only [TabState.step, Option.some.injEq] at hstep
    subst hstep
    have h1 := drop_cons h
    rw [Parse.bind_ok (getu8_prefix d _ _ off h)]
    simp only [execOp, BitVec.reduceAnd, BitVec.reduceToNat]
    rw [Parse.bind_ok (uleb32 d _ _ (off + 1) h1 hw)]
    rw [Parse.pure_apply]
    refine ⟨_, by simp only [Insn.encode, List.length_cons, List.length_append, List.length_nil, leBytes_length]; congr 2 <;> omega, ?_⟩
    rw [set32_64]
    exact hs.withRow (holds_set hs.row _ _ _ rfl)
  | register r r2 =>
    simp only [Insn.encode, List.cons_append, List.nil_append, List.append_assoc] at h
    simp only [TabState.step, Option.some.injEq] at hstep
    subst hstep
    have h1 := drop_cons h
    have h2 := drop_prefix h1
    rw [Parse.bind_ok (getu8_prefix d _ _ off h)]
    simp only [execOp, BitVec.reduceAnd, BitVec.reduceToNat]
    rw [Parse.bind_ok (uleb32 d _ _ (off + 1) h1 hw), Parse.bind_ok (ulebN d _ r2 hi _ h2 hw)]
    rw [Parse.pure_apply]
    refine ⟨_, by simp only [Insn.encode, List.length_cons, List.length_append, List.length_nil, leBytes_length]; congr 2 <;> omega, ?_⟩
    rw [set32_64]
    exact hs.withRow (holds_set hs.row _ _ _ ⟨rfl, rfl⟩)
  | remember =>
    simp only [Insn.encode, List.cons_append, List.nil_append, List.append_assoc] at h
    simp only [TabState.step, Option.some.injEq] at hstep
    subst hstep
    have h1 := drop_cons h
    rw [Parse.bind_ok (getu8_prefix d _ _ off h)]
    simp only [execOp, BitVec.reduceAnd, BitVec.reduceToNat]
    rw [Parse.pure_apply]
    refine ⟨_, by simp only [Insn.encode, List.length_cons, List.length_append, List.length_nil, leBytes_length]; congr 2 <;> omega, ?_⟩
    exact ⟨hs.loc, hs.row, hs.row, hs.stack⟩
  | restoreState =>
    simp only [Insn.encode, List.cons_append, List.nil_append] at h
    simp only [TabState.step] at hstep
    rw [Parse.bind_ok (getu8_prefix d _ _ off h)]
    simp only [execOp, BitVec.reduceAnd, BitVec.reduceToNat]
    have hst := hs.stack
    cases hs2 : s.stack with
    | nil => rw [hs2] at hstep; simp at hstep
    | cons row stack =>
      rw [hs2] at hstep hst
      simp only [Option.some.injEq] at hstep
      subst hstep
      cases hs1 : st.stack with
      | nil => rw [hs1] at hst; exact absurd hst (by simp [StackRel])
      | cons f fs =>
        rw [hs1] at hst
        exact ⟨_, rfl, hs.loc, hst.1, hst.2⟩
  | defCfa r n =>
    simp only [Insn.encode, List.cons_append, List.nil_append, List.append_assoc] at h
    simp only [TabState.step, Option.some.injEq] at hstep
    subst hstep
    have h1 := drop_cons h
    have h2 := drop_prefix h1
    rw [Parse.bind_ok (getu8_prefix d _ _ off h)]
    simp only [execOp, BitVec.reduceAnd, BitVec.reduceToNat]
    rw [Parse.bind_ok (uleb32 d _ _ (off + 1) h1 hw), Parse.bind_ok (ulebN d _ n hi _ h2 hw)]
    rw [Parse.pure_apply]
    refine ⟨_, by simp only [Insn.encode, List.length_cons, List.length_append, List.length_nil, leBytes_length]; congr 2 <;> omega, ?_⟩
    rw [set32_64]
    exact hs.withRow (holds_cfa hs.row ⟨rfl, rfl, by simp⟩)
  | defCfaSf r n =>
    simp only [Insn.encode, List.cons_append, List.nil_append, List.append_assoc] at h
    simp only [TabState.step, Option.some.injEq] at hstep
    subst hstep
    have h1 := drop_cons h
    have h2 := drop_prefix h1
    rw [Parse.bind_ok (getu8_prefix d _ _ off h)]
    simp only [execOp, BitVec.reduceAnd, BitVec.reduceToNat]
    rw [Parse.bind_ok (uleb32 d _ _ (off + 1) h1 hw), Parse.bind_ok (slebI d _ n hi.1 hi.2 _ h2 hw)]
    rw [Parse.pure_apply]
    refine ⟨_, by simp only [Insn.encode, List.length_cons, List.length_append, List.length_nil, leBytes_length]; congr 2 <;> omega, ?_⟩
    rw [set32_64, mul_align cie k hk2]
    exact hs.withRow (holds_cfa hs.row ⟨rfl, rfl, rfl⟩)
  | defCfaRegister r =>
    simp only [Insn.encode, List.cons_append, List.nil_append, List.append_assoc] at h
    simp only [TabState.step] at hstep
    have h1 := drop_cons h
    have hr := hs.row.1
    cases hc : s.row.cfa with
    | undefined => rw [hc] at hstep; simp at hstep
    | expr c => rw [hc] at hstep; simp at hstep
    | regOff r0 n0 =>
      rw [hc] at hstep hr
      simp only [Option.some.injEq] at hstep
      subst hstep
      rw [Parse.bind_ok (getu8_prefix d _ _ off h)]
      simp only [execOp, BitVec.reduceAnd, BitVec.reduceToNat]
      rw [Parse.bind_ok (uleb32 d _ _ (off + 1) h1 hw)]
      rw [Parse.pure_apply]
      refine ⟨_, by simp only [Insn.encode, List.length_cons, List.length_append, List.length_nil, leBytes_length]; congr 2 <;> omega, ?_⟩
      rw [set32_64]
      exact hs.withRow (holds_cfa hs.row ⟨rfl, rfl, hr.2.2⟩)
  | defCfaOffset n =>
    simp only [Insn.encode, List.cons_append, List.nil_append, List.append_assoc] at h
    simp only [TabState.step] at hstep
    have h1 := drop_cons h
    have hr := hs.row.1
    cases hc : s.row.cfa with
    | undefined => rw [hc] at hstep; simp at hstep
    | expr c => rw [hc] at hstep; simp at hstep
    | regOff r0 n0 =>
      rw [hc] at hstep hr
      simp only [Option.some.injEq] at hstep
      subst hstep
      rw [Parse.bind_ok (getu8_prefix d _ _ off h)]
      simp only [execOp, BitVec.reduceAnd, BitVec.reduceToNat]
      rw [Parse.bind_ok (ulebN d _ n hi (off + 1) h1 hw)]
      rw [Parse.pure_apply]
      refine ⟨_, by simp only [Insn.encode, List.length_cons, List.length_append, List.length_nil, leBytes_length]; congr 2 <;> omega, ?_⟩
      exact hs.withRow (holds_cfa hs.row ⟨hr.1, rfl, by simp⟩)
  | defCfaOffsetSf n =>
    simp only [Insn.encode, List.cons_append, List.nil_append, List.append_assoc] at h
    simp only [TabState.step] at hstep
    have h1 := drop_cons h
    have hr := hs.row.1
    cases hc : s.row.cfa with
    | undefined => rw [hc] at hstep; simp at hstep
    | expr c => rw [hc] at hstep; simp at hstep
    | regOff r0 n0 =>
      rw [hc] at hstep hr
      simp only [Option.some.injEq] at hstep
      subst hstep
      rw [Parse.bind_ok (getu8_prefix d _ _ off h)]
      simp only [execOp, BitVec.reduceAnd, BitVec.reduceToNat]
      rw [Parse.bind_ok (slebI d _ n hi.1 hi.2 (off + 1) h1 hw)]
      rw [Parse.pure_apply]
      refine ⟨_, by simp only [Insn.encode, List.length_cons, List.length_append, List.length_nil, leBytes_length]; congr 2 <;> omega, ?_⟩
      rw [mul_align cie k hk2]
      exact hs.withRow (holds_cfa hs.row ⟨hr.1, rfl, rfl⟩)
  | defCfaExpr c =>
    simp only [Insn.encode, List.cons_append, List.nil_append, List.append_assoc] at h
    simp only [TabState.step, Option.some.injEq] at hstep
    subst hstep
    have h1 := drop_cons h
    obtain ⟨x1, x2, x3⟩ := skip_expr d c rest (off + 1) hw h1
    rw [Parse.bind_ok (getu8_prefix d _ _ off h)]
    simp only [execOp, BitVec.reduceAnd, BitVec.reduceToNat]
    rw [Parse.bind_ok x1, Parse.bind_ok (show getOffset _ = .ok (_, _) from rfl), Parse.bind_ok x2]
    rw [Parse.pure_apply]
    refine ⟨_, by simp only [Insn.encode, List.length_cons, List.length_append, List.length_nil, leBytes_length]; congr 2 <;> omega, ?_⟩
    exact hs.withRow (holds_cfa hs.row ⟨rfl, x3⟩)
  | expr r c =>
    simp only [Insn.encode, List.cons_append, List.nil_append, List.append_assoc] at h
    simp only [TabState.step, Option.some.injEq] at hstep
    subst hstep
    have h1 := drop_cons h
    have h2 := drop_prefix h1
    obtain ⟨x1, x2, x3⟩ := skip_expr d c rest _ hw h2
    rw [Parse.bind_ok (getu8_prefix d _ _ off h)]
    simp only [execOp, BitVec.reduceAnd, BitVec.reduceToNat]
    rw [Parse.bind_ok (uleb32 d _ _ (off + 1) h1 hw), Parse.bind_ok x1, Parse.bind_ok (show getOffset _ = .ok (_, _) from rfl), Parse.bind_ok x2]
    rw [Parse.pure_apply]
    refine ⟨_, by simp only [Insn.encode, List.length_cons, List.length_append, List.length_nil, leBytes_length]; congr 2 <;> omega, ?_⟩
    rw [set32_64]
    exact hs.withRow (holds_set hs.row _ _ _ ⟨rfl, x3⟩)
  | valExpr r c =>
    simp only [Insn.encode, List.cons_append, List.nil_append, List.append_assoc] at h
    simp only [TabState.step, Option.some.injEq] at hstep
    subst hstep
    have h1 := drop_cons h
    have h2 := drop_prefix h1
    obtain ⟨x1, x2, x3⟩ := skip_expr d c rest _ hw h2
    rw [Parse.bind_ok (getu8_prefix d _ _ off h)]
    simp only [execOp, BitVec.reduceAnd, BitVec.reduceToNat]
    rw [Parse.bind_ok (uleb32 d _ _ (off + 1) h1 hw), Parse.bind_ok x1, Parse.bind_ok (show getOffset _ = .ok (_, _) from rfl), Parse.bind_ok x2]
    rw [Parse.pure_apply]
    refine ⟨_, by simp only [Insn.encode, List.length_cons, List.length_append, List.length_nil, leBytes_length]; congr 2 <;> omega, ?_⟩
    rw [set32_64]
    exact hs.withRow (holds_set hs.row _ _ _ ⟨rfl, x3⟩)
  | argsSize n =>
    simp only [Insn.encode, List.cons_append, List.nil_append, List.append_assoc] at h
    simp only [TabState.step, Option.some.injEq] at hstep
    subst hstep
    have h1 := drop_cons h
    rw [Parse.bind_ok (getu8_prefix d _ _ off h)]
    simp only [execOp, BitVec.reduceAnd, BitVec.reduceToNat]
    rw [Parse.bind_ok (slebI d _ n hi.1 hi.2 (off + 1) h1 hw)]
    rw [Parse.pure_apply]
    refine ⟨_, by simp only [Insn.encode, List.length_cons, List.length_append, List.length_nil, leBytes_length]; congr 2 <;> omega, ?_⟩
    exact hs

/-! ### whole programs -/

theorem encode_ne_nil (i : Insn) : i.encode ≠ [] := by cases i <;> simp [Insn.encode]

theorem encodeInsns_length (is : List Insn) : is.length ≤ (encodeInsns is).length := by
  induction is with
  | nil => simp
  | cons i is ih =>
    have := List.length_pos_iff.2 (encode_ne_nil i)
    simp only [encodeInsns, List.map_cons, List.flatten_cons, List.length_append, List.length_cons] at *
    omega

theorem step_loc {k : Factors} {ini : Row} {s s' : TabState} {i : Insn} (h : s.step k ini i = some s') :
    s.loc ≤ s'.loc ∧ (i.endsRow = false → s'.loc = s.loc) ∧ (i.endsRow = true → s'.row = s.row) := by
  have hadv : ∀ delta, s.advance k delta = some s' → s.loc ≤ s'.loc ∧ s'.row = s.row := by
    intro delta h
    unfold TabState.advance at h
    split at h
    · simp only [Option.some.injEq] at h; subst h; exact ⟨by simp, rfl⟩
    · simp at h
  cases i <;> simp only [TabState.step] at h <;> simp only [Insn.endsRow, Bool.true_eq_false, false_implies, true_and,
    Bool.false_eq_true, and_true, true_implies, forall_const]
  case setLoc a =>
    split at h
    · simp only [Option.some.injEq] at h; subst h; rename_i hle; exact ⟨hle, rfl⟩
    · simp at h
  case advance d => exact hadv _ h
  case advance1 d => exact hadv _ h
  case advance2 d => exact hadv _ h
  case advance4 d => exact hadv _ h
  case restoreState =>
    split at h
    · simp at h
    · simp only [Option.some.injEq] at h; subst h; exact ⟨Nat.le_refl _, rfl⟩
  case defCfaRegister r =>
    split at h
    · simp only [Option.some.injEq] at h; subst h; exact ⟨Nat.le_refl _, rfl⟩
    · simp at h
  case defCfaOffset r =>
    split at h
    · simp only [Option.some.injEq] at h; subst h; exact ⟨Nat.le_refl _, rfl⟩
    · simp at h
  case defCfaOffsetSf r =>
    split at h
    · simp only [Option.some.injEq] at h; subst h; exact ⟨Nat.le_refl _, rfl⟩
    · simp at h
  all_goals (simp only [Option.some.injEq] at h; subst h; exact ⟨Nat.le_refl _, rfl⟩)

theorem rows_ge {k : Factors} {ini : Row} (is : List Insn) : ∀ (s : TabState) (t : List (Nat × Row)),
    rows k ini s is = some t → ∀ r ∈ t, s.loc ≤ r.1 := by
  induction is with
  | nil =>
    intro s t h r hr
    simp only [rows, Option.some.injEq] at h
    subst h
    simp at hr; subst hr; exact Nat.le_refl _
  | cons i is ih =>
    intro s t h r hr
    simp only [rows] at h
    cases hst : s.step k ini i with
    | none => rw [hst] at h; simp at h
    | some s' =>
      rw [hst] at h
      dsimp only at h
      cases hrs : rows k ini s' is with
      | none => rw [hrs] at h; simp at h
      | some t' =>
        rw [hrs] at h
        simp only [Option.some.injEq] at h
        subst h
        have hmono := (step_loc hst).1
        split at hr
        · simp only [List.mem_cons] at hr
          rcases hr with rfl | hr
          · exact Nat.le_refl _
          · exact Nat.le_trans hmono (ih s' t' hrs r hr)
        · exact Nat.le_trans hmono (ih s' t' hrs r hr)

theorem rowAt_cons_some (x : Nat × Row) (t : List (Nat × Row)) (addr : Nat) (row : Row) (h : rowAt t addr = some row) :
    rowAt (x :: t) addr = some row := by
  unfold rowAt at *
  rw [List.filter_cons]
  split
  · simp only [Option.map_eq_some_iff] at *
    obtain ⟨a, h1, h2⟩ := h
    refine ⟨a, ?_, h2⟩
    rw [List.getLast?_cons, h1]; rfl
  · exact h

section
variable (d : List Byte) (hw : d.length < W64) (cie : CIE) (k : Factors)
    (hk1 : cie.codeAlign.toNat = k.code) (hk2 : cie.dataAlign.toInt = k.data)
    (df : CallFrame) (ini : Row) (hini : Holds d df ini)
include hw hk1 hk2 hini

theorem execLoop_rows (addr : BitVec 64) (rest : List Byte) (is : List Insn) :
    ∀ (fuel off : Nat) (st : ExecState) (s : TabState) (t : List (Nat × Row)), StRel d st s → (∀ i ∈ is, i.WF) →
      s.loc ≤ addr.toNat → is.length < fuel → d.drop off = encodeInsns is ++ rest → rows k ini s is = some t →
      ∃ f row, execLoop d cie df (fun a => decide (addr.toNat < a.toNat)) (off + (encodeInsns is).length) fuel st off = .ok f ∧
        rowAt t addr.toNat = some row ∧ Holds d f row := by
  induction is with
  | nil =>
    intro fuel off st s t hs _ hloc hfuel hd ht
    simp only [rows, Option.some.injEq] at ht
    subst ht
    cases fuel with
    | zero => simp at hfuel
    | succ fuel =>
      refine ⟨st.frame, s.row, ?_, ?_, hs.row⟩
      · rw [execLoop, if_pos (by right; simp [encodeInsns])]
      · simp [rowAt, hloc]
  | cons i is ih =>
    intro fuel off st s t hs hwf hloc hfuel hd ht
    cases fuel with
    | zero => simp at hfuel
    | succ fuel =>
      have hlen : (encodeInsns (i :: is)).length = i.encode.length + (encodeInsns is).length := by
        simp [encodeInsns]
      have hpos := List.length_pos_iff.2 (encode_ne_nil i)
      simp only [rows] at ht
      cases hst : s.step k ini i with
      | none => rw [hst] at ht; simp at ht
      | some s' =>
        rw [hst] at ht
        dsimp only at ht
        cases hrs : rows k ini s' is with
        | none => rw [hrs] at ht; simp at ht
        | some t' =>
          rw [hrs] at ht
          simp only [Option.some.injEq] at ht
          have hd' : d.drop off = i.encode ++ (encodeInsns is ++ rest) := by
            rw [hd]; simp [encodeInsns]
          obtain ⟨st', g1, g2⟩ := execOne_insn d _ hw cie k hk1 hk2 df ini hini st s s' hs i (hwf i List.mem_cons_self) off hd' hst
          have hd2 := drop_prefix hd'
          have hexec : ∀ e, e = off + (encodeInsns (i :: is)).length →
              execLoop d cie df (fun a => decide (addr.toNat < a.toNat)) e (fuel + 1) st off =
              execLoop d cie df (fun a => decide (addr.toNat < a.toNat)) e fuel st' (off + i.encode.length) := by
            intro e he
            rw [execLoop, if_neg (by
              simp only [decide_eq_true_eq, hs.loc]; omega), g1]; rfl
          rw [hexec _ rfl]
          by_cases hle : s'.loc ≤ addr.toNat
          · obtain ⟨f, row, r1, r2, r3⟩ := ih fuel (off + i.encode.length) st' s' t' g2
              (fun j hj => hwf j (List.mem_cons_of_mem _ hj)) hle (by simp at hfuel; omega) hd2 hrs
            refine ⟨f, row, ?_, ?_, r3⟩
            · rw [hlen, ← Nat.add_assoc]; exact r1
            · rw [← ht]
              split
              · exact rowAt_cons_some _ _ _ _ r2
              · exact r2
          · have hsl := step_loc hst
            have hend : i.endsRow = true := by
              cases he : i.endsRow with
              | true => rfl
              | false => have := hsl.2.1 he; omega
            rw [hend, if_pos rfl] at ht
            refine ⟨st'.frame, s.row, ?_, ?_, ?_⟩
            · cases fuel with
              | zero => simp at hfuel
              | succ fuel =>
                rw [execLoop, if_pos (by left; simp only [decide_eq_true_eq, g2.loc]; omega)]
            · rw [← ht]
              have hf : t'.filter (fun r => decide (r.1 ≤ addr.toNat)) = [] := by
                rw [List.filter_eq_nil_iff]
                intro r hr
                have := rows_ge is s' t' hrs r hr
                simp; omega
              simp [rowAt, List.filter_cons, hf, hloc]
            · rw [← hsl.2.2 hend]; exact g2.row

theorem execLoop_final (rest : List Byte) (is : List Insn) :
    ∀ (fuel off : Nat) (st : ExecState) (s : TabState) (row : Row), StRel d st s → (∀ i ∈ is, i.WF) →
      is.length < fuel → d.drop off = encodeInsns is ++ rest → finalRow k ini s is = some row →
      ∃ f, execLoop d cie df (fun _ => false) (off + (encodeInsns is).length) fuel st off = .ok f ∧ Holds d f row := by
  induction is with
  | nil =>
    intro fuel off st s row hs _ hfuel hd ht
    simp only [finalRow, Option.some.injEq] at ht
    subst ht
    cases fuel with
    | zero => simp at hfuel
    | succ fuel =>
      refine ⟨st.frame, ?_, hs.row⟩
      rw [execLoop, if_pos (by right; simp [encodeInsns])]
  | cons i is ih =>
    intro fuel off st s row hs hwf hfuel hd ht
    cases fuel with
    | zero => simp at hfuel
    | succ fuel =>
      have hlen : (encodeInsns (i :: is)).length = i.encode.length + (encodeInsns is).length := by
        simp [encodeInsns]
      have hpos := List.length_pos_iff.2 (encode_ne_nil i)
      simp only [finalRow] at ht
      cases hst : s.step k ini i with
      | none => rw [hst] at ht; simp at ht
      | some s' =>
        rw [hst] at ht
        dsimp only at ht
        have hd' : d.drop off = i.encode ++ (encodeInsns is ++ rest) := by
          rw [hd]; simp [encodeInsns]
        obtain ⟨st', g1, g2⟩ := execOne_insn d _ hw cie k hk1 hk2 df ini hini st s s' hs i (hwf i List.mem_cons_self) off hd' hst
        have hd2 := drop_prefix hd'
        obtain ⟨f, r1, r3⟩ := ih fuel (off + i.encode.length) st' s' row g2
              (fun j hj => hwf j (List.mem_cons_of_mem _ hj)) (by simp at hfuel; omega) hd2 ht
        refine ⟨f, ?_, r3⟩
        rw [execLoop, if_neg (by simp only [Bool.false_eq_true, false_or]; omega), g1, Res.bind_ok]
        rw [hlen, ← Nat.add_assoc]; exact r1

end

end Pstack.Dwarf
