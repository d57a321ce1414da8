import Verif.Proof.Cfa
import Verif.Props.Json
import Verif.Model.DumpCfa
import Verif.Spec.DumpCfa
set_option linter.unusedSimpArgs false
namespace Pstack.DumpCfa
open Pstack.Reader Pstack.Dwarf Pstack.Spec Pstack.Json Pstack.Props

/-- A negative number read as an unsigned one. -/
theorem group_negative (z : Int) : z < 0 → (groupValue (encodeS z) : Int) = z + (128 ^ (encodeS z).length : Nat) := by
  fun_induction encodeS z with
  | case1 z h =>
    intro hz
    simp only [groupValue, BitVec.toNat_ofInt, List.length_cons, List.length_nil]
    have : (128 ^ (0 + 1) : Nat) = 128 := rfl
    rw [this]
    omega
  | case2 z h ih =>
    intro hz
    have := ih (by omega)
    simp only [groupValue, BitVec.toNat_ofInt, List.length_cons]
    rw [Nat.pow_succ]
    omega

theorem length_signed (z : Int) (h1 : -2 ^ 63 ≤ z) (h2 : z < 2 ^ 63) : (encodeS z).length ≤ 10 :=
  encodeS_length 9 z (by omega) (by omega)

theorem uleb_signed (d rest : List Byte) (n : Int) (h1 : -2 ^ 63 ≤ n) (h2 : n < 2 ^ 63) (off : Nat)
    (h : d.drop off = encodeS n ++ rest) (hw : d.length < W64) :
    getuleb128 d off = .ok (BitVec.ofNat 64 (groupValue (encodeS n)), off + (encodeS n).length) := by
  unfold getuleb128
  have hlen := length_signed n h1 h2
  have e := leb_unsigned .exc (encodeS n) 0 0#64 rest (encodeS_terminated _) (by omega) (by decide)
  simp only [BitVec.toNat_ofNat, Nat.zero_mod, Nat.zero_add, Nat.mul_zero, Nat.pow_zero, Nat.mul_one] at e
  rw [h]
  unfold readULEB128
  rw [e]
  have hl := congrArg List.length h
  have : 0 < (encodeS n).length := List.length_pos_iff.2 (encodeS_ne_nil n)
  simp at hl
  simp only
  rw [Nat.mod_eq_of_lt (by omega)]

theorem group_nonneg (n : Int) (h0 : 0 ≤ n) (h2 : n < 2 ^ 63) : ((BitVec.ofNat 64 (groupValue (encodeS n))).toNat : Int) = n := by
  have hv := encodeS_value n
  have key : ∀ z : Int, 0 ≤ z → (groupValue (encodeS z) : Int) = z := by
    intro z
    fun_induction encodeS z with
    | case1 z h =>
      intro hz
      simp only [groupValue, BitVec.toNat_ofInt]
      omega
    | case2 z h ih =>
      intro hz
      have := ih (by omega)
      simp only [groupValue, BitVec.toNat_ofInt]
      omega
  have := key n h0
  rw [BitVec.toNat_ofNat]
  omega

theorem toNat64 {n : Nat} (h : n < 2 ^ 64) : ((BitVec.ofNat 64 n).toNat : Int) = n := by
  rw [BitVec.toNat_ofNat, Nat.mod_eq_of_lt h]

theorem toNat_wide (r : BitVec 32) : (r.setWidth 64).toNat = r.toNat := by
  rw [BitVec.toNat_setWidth]; exact Nat.mod_eq_of_lt (by omega)

theorem len_small {d c rest : List Byte} {off : Nat} (h : d.drop off = c ++ rest) (hw : d.length < W64) : c.length < 2 ^ 64 := by
  have := congrArg List.length h
  simp at this
  rw [← W64_eq]
  omega

/-- One instruction. -/
theorem dump_insn (d rest : List Byte) (hw : d.length < W64) (i : Insn) (hi : i.WF) (hf : i.FairlyShown) (off : Nat)
    (h : d.drop off = i.encode ++ rest) :
    ∃ op p, getu8 d off = .ok (op, p) ∧ dumpOp d op p = .ok ((i.dwName, i.operands off), off + i.encode.length) := by
  cases i with
  | nop =>
    simp only [Insn.encode, List.cons_append, List.nil_append, List.append_assoc] at h
    refine ⟨_, _, getu8_prefix d _ _ off h, ?_⟩
    simp only [dumpOp, BitVec.reduceAnd, BitVec.reduceToNat]
    rfl
  | setLoc a =>
    simp only [Insn.encode, List.cons_append, List.nil_append, List.append_assoc] at h
    have h1 := drop_cons h
    refine ⟨_, _, getu8_prefix d _ _ off h, ?_⟩
    simp only [dumpOp, BitVec.reduceAnd, BitVec.reduceToNat]
    rw [Parse.bind_ok (getuint_leBytes d _ (off + 1) 8 a (by decide) hi h1), Parse.pure_apply, toNat64 hi]
    simp only [Insn.encode, Insn.dwName, Insn.operands, List.length_cons, leBytes_length]
  | advance n =>
    simp only [Insn.encode, List.cons_append, List.nil_append] at h
    refine ⟨_, _, getu8_prefix d _ _ off h, ?_⟩
    obtain ⟨l1, l2, -⟩ := low_ops n 1 hi (by decide)
    simp only [Nat.mul_one] at l1 l2
    simp only [dumpOp, l1, l2]
    rfl
  | advance1 n =>
    have hi' : n < 256 := hi
    have hb : leBytes 1 n = [BitVec.ofNat 8 n] := by
      simp only [leBytes]; rw [Nat.mod_eq_of_lt hi']
    simp only [Insn.encode, hb, List.cons_append, List.nil_append] at h
    have h1 := drop_cons h
    refine ⟨_, _, getu8_prefix d _ _ off h, ?_⟩
    simp only [dumpOp, BitVec.reduceAnd, BitVec.reduceToNat]
    rw [Parse.bind_ok (getu8_prefix d _ _ (off + 1) h1), Parse.pure_apply]
    rw [BitVec.toNat_ofNat, Nat.mod_eq_of_lt hi']
    rfl
  | advance2 n =>
    have hi' : n < 2 ^ 16 := hi
    simp only [Insn.encode, List.cons_append, List.nil_append] at h
    have h1 := drop_cons h
    have e0 : (BitVec.ofNat 16 n).toNat = n := by
      rw [BitVec.toNat_ofNat]; exact Nat.mod_eq_of_lt hi'
    refine ⟨_, _, getu8_prefix d _ _ off h, ?_⟩
    simp only [dumpOp, BitVec.reduceAnd, BitVec.reduceToNat]
    rw [Parse.bind_ok (getu16_prefix d _ (BitVec.ofNat 16 n) (off + 1) (by rw [e0]; exact h1)), Parse.pure_apply, e0]
    rfl
  | advance4 n =>
    have hi' : n < 2 ^ 32 := hi
    have hf' : n < 2 ^ 31 := hf
    simp only [Insn.encode, List.cons_append, List.nil_append] at h
    have h1 := drop_cons h
    have e0 : (BitVec.ofNat 32 n).toNat = n := by
      rw [BitVec.toNat_ofNat]; exact Nat.mod_eq_of_lt hi'
    have e1 : (BitVec.ofNat 32 n).toInt = n := by
      rw [BitVec.toInt_eq_toNat_of_lt (by rw [e0]; omega), e0]
    refine ⟨_, _, getu8_prefix d _ _ off h, ?_⟩
    simp only [dumpOp, BitVec.reduceAnd, BitVec.reduceToNat]
    rw [Parse.bind_ok (getu32_prefix d _ (BitVec.ofNat 32 n) (off + 1) (by rw [e0]; exact h1)), Parse.pure_apply, e1]
    rfl
  | offset r n =>
    simp only [Insn.encode, List.cons_append, List.nil_append] at h
    have h1 := drop_cons h
    refine ⟨_, _, getu8_prefix d _ _ off h, ?_⟩
    obtain ⟨l1, l2, -⟩ := low_ops r 2 hi.1 (by decide)
    simp only [Nat.reduceMul] at l1 l2
    simp only [dumpOp, l1, l2]
    rw [Parse.bind_ok (ulebN d _ n hi.2 (off + 1) h1 hw), Parse.pure_apply, toNat64 hi.2]
    simp only [Insn.encode, Insn.dwName, Insn.operands, List.length_cons]; congr 2; omega
  | offsetExt r n =>
    simp only [Insn.encode, List.cons_append, List.nil_append, List.append_assoc] at h
    have h1 := drop_cons h
    have h2 := drop_prefix h1
    refine ⟨_, _, getu8_prefix d _ _ off h, ?_⟩
    simp only [dumpOp, BitVec.reduceAnd, BitVec.reduceToNat]
    rw [Parse.bind_ok (uleb32 d _ _ (off + 1) h1 hw), Parse.bind_ok (ulebN d _ n hi _ h2 hw)]
    rw [Parse.pure_apply, toNat64 hi, toNat_wide]
    simp only [Insn.encode, Insn.dwName, Insn.operands, List.length_cons, List.length_append]; congr 2; omega
  | offsetExtSf r n =>
    simp only [Insn.encode, List.cons_append, List.nil_append, List.append_assoc] at h
    have h1 := drop_cons h
    have h2 := drop_prefix h1
    have e : (BitVec.ofInt 64 n).toInt = n := by
      have := hi.1; have := hi.2
      rw [BitVec.toInt_ofInt]; apply Int.bmod_eq_of_le <;> omega
    refine ⟨_, _, getu8_prefix d _ _ off h, ?_⟩
    simp only [dumpOp, BitVec.reduceAnd, BitVec.reduceToNat]
    rw [Parse.bind_ok (uleb32 d _ _ (off + 1) h1 hw), Parse.bind_ok (slebI d _ n hi.1 hi.2 _ h2 hw)]
    rw [Parse.pure_apply, e, toNat_wide]
    simp only [Insn.encode, Insn.dwName, Insn.operands, List.length_cons, List.length_append]; congr 2; omega
  | restore r =>
    simp only [Insn.encode, List.cons_append, List.nil_append] at h
    refine ⟨_, _, getu8_prefix d _ _ off h, ?_⟩
    obtain ⟨l1, l2, -⟩ := low_ops r 3 hi (by decide)
    simp only [Nat.reduceMul] at l1 l2
    simp only [dumpOp, l1, l2]
    rfl
  | restoreExt r =>
    simp only [Insn.encode, List.cons_append, List.nil_append, List.append_assoc] at h
    have h1 := drop_cons h
    refine ⟨_, _, getu8_prefix d _ _ off h, ?_⟩
    simp only [dumpOp, BitVec.reduceAnd, BitVec.reduceToNat]
    rw [Parse.bind_ok (uleb32 d _ _ (off + 1) h1 hw), Parse.pure_apply, toNat_wide]
    simp only [Insn.encode, Insn.dwName, Insn.operands, List.length_cons]; congr 2; omega
  | undefined r =>
    simp only [Insn.encode, List.cons_append, List.nil_append, List.append_assoc] at h
    have h1 := drop_cons h
    refine ⟨_, _, getu8_prefix d _ _ off h, ?_⟩
    simp only [dumpOp, BitVec.reduceAnd, BitVec.reduceToNat]
    rw [Parse.bind_ok (uleb32 d _ _ (off + 1) h1 hw), Parse.pure_apply, toNat_wide]
    simp only [Insn.encode, Insn.dwName, Insn.operands, List.length_cons]; congr 2; omega
  | sameValue r =>
    simp only [Insn.encode, List.cons_append, List.nil_append, List.append_assoc] at h
    have h1 := drop_cons h
    refine ⟨_, _, getu8_prefix d _ _ off h, ?_⟩
    simp only [dumpOp, BitVec.reduceAnd, BitVec.reduceToNat]
    rw [Parse.bind_ok (uleb32 d _ _ (off + 1) h1 hw), Parse.pure_apply, toNat_wide]
    simp only [Insn.encode, Insn.dwName, Insn.operands, List.length_cons]; congr 2; omega
  | register r r2 =>
    simp only [Insn.encode, List.cons_append, List.nil_append, List.append_assoc] at h
    have h1 := drop_cons h
    have h2 := drop_prefix h1
    refine ⟨_, _, getu8_prefix d _ _ off h, ?_⟩
    simp only [dumpOp, BitVec.reduceAnd, BitVec.reduceToNat]
    rw [Parse.bind_ok (uleb32 d _ _ (off + 1) h1 hw), Parse.bind_ok (ulebN d _ r2 hi _ h2 hw)]
    rw [Parse.pure_apply, toNat64 hi, toNat_wide]
    simp only [Insn.encode, Insn.dwName, Insn.operands, List.length_cons, List.length_append]; congr 2; omega
  | remember =>
    simp only [Insn.encode, List.cons_append, List.nil_append, List.append_assoc] at h
    refine ⟨_, _, getu8_prefix d _ _ off h, ?_⟩
    simp only [dumpOp, BitVec.reduceAnd, BitVec.reduceToNat]
    rfl
  | restoreState =>
    simp only [Insn.encode, List.cons_append, List.nil_append, List.append_assoc] at h
    refine ⟨_, _, getu8_prefix d _ _ off h, ?_⟩
    simp only [dumpOp, BitVec.reduceAnd, BitVec.reduceToNat]
    rfl
  | defCfa r n =>
    simp only [Insn.encode, List.cons_append, List.nil_append, List.append_assoc] at h
    have h1 := drop_cons h
    have h2 := drop_prefix h1
    refine ⟨_, _, getu8_prefix d _ _ off h, ?_⟩
    simp only [dumpOp, BitVec.reduceAnd, BitVec.reduceToNat]
    rw [Parse.bind_ok (uleb32 d _ _ (off + 1) h1 hw), Parse.bind_ok (ulebN d _ n hi _ h2 hw)]
    rw [Parse.pure_apply, toNat64 hi, toNat_wide]
    simp only [Insn.encode, Insn.dwName, Insn.operands, List.length_cons, List.length_append]; congr 2; omega
  | defCfaSf r n =>
    simp only [Insn.encode, List.cons_append, List.nil_append, List.append_assoc] at h
    have h1 := drop_cons h
    have h2 := drop_prefix h1
    refine ⟨_, _, getu8_prefix d _ _ off h, ?_⟩
    simp only [dumpOp, BitVec.reduceAnd, BitVec.reduceToNat]
    rw [Parse.bind_ok (uleb32 d _ _ (off + 1) h1 hw), Parse.bind_ok (uleb_signed d _ n hi.1 hi.2 _ h2 hw)]
    rw [Parse.pure_apply, group_nonneg n hf hi.2, toNat_wide]
    simp only [Insn.encode, Insn.dwName, Insn.operands, List.length_cons, List.length_append]; congr 2; omega
  | defCfaRegister r =>
    simp only [Insn.encode, List.cons_append, List.nil_append, List.append_assoc] at h
    have h1 := drop_cons h
    refine ⟨_, _, getu8_prefix d _ _ off h, ?_⟩
    simp only [dumpOp, BitVec.reduceAnd, BitVec.reduceToNat]
    rw [Parse.bind_ok (uleb32 d _ _ (off + 1) h1 hw), Parse.pure_apply, toNat_wide]
    simp only [Insn.encode, Insn.dwName, Insn.operands, List.length_cons]; congr 2; omega
  | defCfaOffset n =>
    simp only [Insn.encode, List.cons_append, List.nil_append, List.append_assoc] at h
    have h1 := drop_cons h
    refine ⟨_, _, getu8_prefix d _ _ off h, ?_⟩
    simp only [dumpOp, BitVec.reduceAnd, BitVec.reduceToNat]
    rw [Parse.bind_ok (ulebN d _ n hi (off + 1) h1 hw), Parse.pure_apply, toNat64 hi]
    simp only [Insn.encode, Insn.dwName, Insn.operands, List.length_cons]; congr 2; omega
  | defCfaOffsetSf n =>
    simp only [Insn.encode, List.cons_append, List.nil_append, List.append_assoc] at h
    have h1 := drop_cons h
    refine ⟨_, _, getu8_prefix d _ _ off h, ?_⟩
    simp only [dumpOp, BitVec.reduceAnd, BitVec.reduceToNat]
    rw [Parse.bind_ok (uleb_signed d _ n hi.1 hi.2 (off + 1) h1 hw), Parse.pure_apply, group_nonneg n hf hi.2]
    simp only [Insn.encode, Insn.dwName, Insn.operands, List.length_cons]; congr 2; omega
  | defCfaExpr c =>
    simp only [Insn.encode, List.cons_append, List.nil_append, List.append_assoc] at h
    have h1 := drop_cons h
    obtain ⟨x1, x2, -⟩ := skip_expr d c rest (off + 1) hw h1
    refine ⟨_, _, getu8_prefix d _ _ off h, ?_⟩
    simp only [dumpOp, BitVec.reduceAnd, BitVec.reduceToNat]
    rw [Parse.bind_ok x1, Parse.bind_ok x2, Parse.pure_apply, toNat64 (len_small (drop_prefix h1) hw)]
    simp only [Insn.encode, Insn.dwName, Insn.operands, List.length_cons, List.length_append]; congr 2; omega
  | expr r c =>
    simp only [Insn.encode, List.cons_append, List.nil_append, List.append_assoc] at h
    have h1 := drop_cons h
    have h2 := drop_prefix h1
    obtain ⟨x1, x2, -⟩ := skip_expr d c rest _ hw h2
    refine ⟨_, _, getu8_prefix d _ _ off h, ?_⟩
    simp only [dumpOp, BitVec.reduceAnd, BitVec.reduceToNat]
    rw [Parse.bind_ok (uleb32 d _ _ (off + 1) h1 hw), Parse.bind_ok x1, Parse.bind_ok x2, Parse.pure_apply,
      toNat64 (len_small (drop_prefix h2) hw), toNat_wide]
    simp only [Insn.encode, Insn.dwName, Insn.operands, List.length_cons, List.length_append]; congr 2; omega
  | valExpr r c =>
    simp only [Insn.encode, List.cons_append, List.nil_append, List.append_assoc] at h
    have h1 := drop_cons h
    have h2 := drop_prefix h1
    obtain ⟨x1, x2, -⟩ := skip_expr d c rest _ hw h2
    refine ⟨_, _, getu8_prefix d _ _ off h, ?_⟩
    simp only [dumpOp, BitVec.reduceAnd, BitVec.reduceToNat]
    rw [Parse.bind_ok (uleb32 d _ _ (off + 1) h1 hw), Parse.bind_ok x1, Parse.bind_ok (show getOffset _ = .ok (_, _) from rfl),
      Parse.bind_ok x2, Parse.pure_apply, toNat64 (len_small (drop_prefix h2) hw), set32_64]
    simp only [Insn.encode, Insn.dwName, Insn.operands, List.length_cons, List.length_append]
    congr 2
    · congr 5; omega
    · omega
  | argsSize n =>
    simp only [Insn.encode, List.cons_append, List.nil_append, List.append_assoc] at h
    have h1 := drop_cons h
    refine ⟨_, _, getu8_prefix d _ _ off h, ?_⟩
    simp only [dumpOp, BitVec.reduceAnd, BitVec.reduceToNat]
    rw [Parse.bind_ok (uleb_signed d _ n hi.1 hi.2 (off + 1) h1 hw), Parse.pure_apply, group_nonneg n hf hi.2]
    simp only [Insn.encode, Insn.dwName, Insn.operands, List.length_cons]; congr 2; omega

/-! ### names and labels -/

/-- Plain characters. -/
def PlainText (s : String) : Prop := ∀ c ∈ s.toList, 32 ≤ c.toNat ∧ c.toNat < 127

instance (s : String) : Decidable (PlainText s) := by unfold PlainText; exact inferInstance

theorem plain_codes {s : String} (h : PlainText s) : ∀ c ∈ charCodes s, Plain c := by
  intro c hc
  simp only [charCodes, List.mem_map] at hc
  obtain ⟨x, hx, rfl⟩ := hc
  have := h x hx
  refine ⟨Or.inl ?_, ?_, Or.inl this.1⟩ <;> omega

theorem utf8s_codes {s : String} (h : PlainText s) : utf8s (charCodes s) = lit s := by
  unfold utf8s charCodes lit
  have : ∀ l : List Char, (∀ c ∈ l, 32 ≤ c.toNat ∧ c.toNat < 127) →
      ((l.map Char.toNat).map utf8).flatten = l.map (fun c => BitVec.ofNat 8 c.toNat) := by
    intro l
    induction l with
    | nil => intro _; rfl
    | cons c l ih =>
      intro hl
      have hc := hl c (by simp)
      simp only [List.map_cons, List.flatten_cons]
      rw [ih (fun x hx => hl x (by simp [hx])), utf8, if_pos (by omega)]
      rfl
  exact this _ h

theorem utf16s_codes {s : String} (h : PlainText s) : utf16s (charCodes s) = charCodes s := by
  unfold utf16s charCodes
  have : ∀ l : List Char, (∀ c ∈ l, 32 ≤ c.toNat ∧ c.toNat < 127) → ((l.map Char.toNat).map utf16).flatten = l.map Char.toNat := by
    intro l
    induction l with
    | nil => intro _; rfl
    | cons c l ih =>
      intro hl
      have hc := hl c (by simp)
      simp only [List.map_cons, List.flatten_cons]
      rw [ih (fun x hx => hl x (by simp [hx])), utf16, if_pos (by omega)]
      rfl
  exact this _ h

theorem plain_name (i : Insn) : PlainText i.dwName := by cases i <;> simp only [Insn.dwName] <;> decide

theorem plain_labels (i : Insn) (pos : Nat) : ∀ f ∈ i.operands pos, PlainText f.1 := by
  cases i <;> intro f hf <;> simp only [Insn.operands, List.mem_cons, List.not_mem_nil, or_false] at hf
  all_goals first
    | exact hf.elim
    | (subst hf; dsimp only; decide)
    | (rcases hf with rfl | rfl <;> dsimp only <;> decide)
    | (rcases hf with rfl | rfl | rfl <;> dsimp only <;> decide)

/-- The object, with its strings as code points. -/
def codeTree (x : String × List (String × Int)) : Tree (List Nat) :=
  .obj true ((charCodes "type", .str (charCodes x.1)) :: x.2.map (fun f => (charCodes f.1, .int f.2)))

theorem fields_held : ∀ l : List (String × Int), (∀ f ∈ l, PlainText f.1) →
    heldFields (l.map (fun f => (charCodes f.1, .int f.2))) = l.map (fun f => (lit f.1, .int f.2)) ∧
    members (l.map (fun f => (charCodes f.1, .int f.2))) = l.map (fun f => (charCodes f.1, .int f.2)) ∧
    PlainFields (l.map (fun f => (charCodes f.1, .int f.2)))
  | [], _ => ⟨by rw [List.map_nil, heldFields]; rfl, by rw [List.map_nil, members]; rfl, by rw [List.map_nil, PlainFields]; trivial⟩
  | f :: l, h => by
    have hf := h f (by simp)
    obtain ⟨a, b, c⟩ := fields_held l (fun x hx => h x (by simp [hx]))
    rw [List.map_cons, List.map_cons, List.map_cons, heldFields, members, PlainFields, a, b, held, value, utf8s_codes hf,
      utf16s_codes hf]
    exact ⟨rfl, rfl, plain_codes hf, by rw [PlainTree] <;> simp, c⟩

theorem tree_held (x : String × List (String × Int)) (h1 : PlainText x.1) (h2 : ∀ f ∈ x.2, PlainText f.1) :
    held (codeTree x) = object x ∧
    value (codeTree x) = .obj ((charCodes "type", .str (charCodes x.1)) :: x.2.map (fun f => (charCodes f.1, .int f.2))) ∧
    PlainTree (codeTree x) := by
  obtain ⟨a, b, c⟩ := fields_held x.2 h2
  have ht : PlainText "type" := by decide
  unfold codeTree object
  rw [held, heldFields, held, a, value, members, value, b, PlainTree, PlainFields, PlainTree, utf8s_codes ht, utf16s_codes ht,
    utf8s_codes h1, utf16s_codes h1]
  exact ⟨rfl, rfl, plain_codes ht, plain_codes h1, c⟩

/-! ### the text -/

theorem skip_bracket (rest : List Char) : skipWs (']' :: rest) = ']' :: rest := skipWs_of (by decide)

theorem ends_bracket (rest : List Char) : Ends (']' :: rest) := by
  intro c hc
  cases hc
  decide

/-- The items with the bracket right after them. -/
theorem items_tight : ∀ xs : List (Tree (List Nat)), PlainItems xs → xs ≠ [] →
    ∃ ts, (∀ sep, printItems sep (heldItems xs) = .ok (sep ++ ts)) ∧ Starts ts ∧ needItems xs ≤ ts.length + 1 ∧
      ∀ n, needItems xs ≤ n → ∀ rest, parseItems n (ts ++ (']' :: rest)) = some (values xs, rest)
  | [], _, h => absurd rfl h
  | x :: xs, hp, _ => by
    rw [PlainItems] at hp
    obtain ⟨t, p1, ⟨c, t', p2, p2a, p2b, p2c⟩, p3, p4⟩ := round_trip x hp.1
    have p3' : 0 < t.length := by rw [p2]; simp
    have ih := items_tight xs hp.2
    cases xs with
    | nil =>
      refine ⟨t, ?_, ⟨c, t', p2, p2a, p2b, p2c⟩, ?_, ?_⟩
      · intro sep
        rw [heldItems, printItems, p1, Res.bind_ok, heldItems, printItems, Res.bind_ok, Res.pure_eq, List.append_nil]
      · simp [needItems]; exact p3
      · intro n hn rest
        simp [needItems] at hn
        obtain ⟨k, rfl⟩ : ∃ k, n = k + 1 := ⟨n - 1, by omega⟩
        rw [parseItems, p4 k (by omega) _ (ends_bracket rest)]
        simp only [Option.bind_eq_bind, Option.bind_some, skip_bracket, values]
    | cons y ys =>
      obtain ⟨ts, q1, q2, q3, q4⟩ := ih (by simp)
      refine ⟨t ++ (",\n".toList ++ ts), ?_, ⟨c, t' ++ (",\n".toList ++ ts), by rw [p2]; rfl, p2a, p2b, p2c⟩, ?_, ?_⟩
      · intro sep
        rw [heldItems, printItems, p1, Res.bind_ok, q1, Res.bind_ok, Res.pure_eq, List.append_assoc]
      · have : needItems (x :: y :: ys) = max (need x) (needItems (y :: ys)) + 1 := by rw [needItems]
        rw [this]
        simp only [List.length_append]
        have : (",\n".toList).length = 2 := rfl
        omega
      · intro n hn rest
        have : needItems (x :: y :: ys) = max (need x) (needItems (y :: ys)) + 1 := by rw [needItems]
        obtain ⟨k, rfl⟩ : ∃ k, n = k + 1 := ⟨n - 1, by omega⟩
        have e1 : ",\n".toList ++ ts ++ (']' :: rest) = ',' :: '\n' :: (ts ++ (']' :: rest)) := rfl
        rw [parseItems, List.append_assoc, e1, p4 k (by omega) _ (ends_comma _)]
        simp only [Option.bind_eq_bind, Option.bind_some]
        rw [skipWs_of (by decide)]
        simp only []
        rw [parseItems_space k (by decide), q4 k (by omega) rest]
        rw [values]
        rfl

/-- The trees of a program. -/
def treesFrom : Nat → List Insn → List (Tree (List Nat))
  | _, [] => []
  | pos, i :: is => codeTree (i.dwName, i.operands pos) :: treesFrom (pos + i.encode.length) is

theorem trees_values : ∀ (is : List Insn) (pos : Nat), values (treesFrom pos is) = shownFrom pos is ∧ PlainItems (treesFrom pos is)
  | [], _ => ⟨by rw [treesFrom, values]; rfl, by rw [treesFrom, PlainItems]; trivial⟩
  | i :: is, pos => by
    obtain ⟨a, b⟩ := trees_values is (pos + i.encode.length)
    obtain ⟨-, v, p⟩ := tree_held (i.dwName, i.operands pos) (plain_name i) (plain_labels i pos)
    rw [treesFrom, values, PlainItems, shownFrom, a, v]
    exact ⟨rfl, p, b⟩

/-- The loop writes the trees. -/
theorem loop_prints (d : List Byte) (hw : d.length < W64) (endOff : Nat) (rest : List Byte) : ∀ (is : List Insn) (off fuel : Nat) (sep : List Char),
    (∀ i ∈ is, i.WF ∧ i.FairlyShown) → is.length < fuel → d.drop off = encodeInsns is ++ rest → endOff = off + (encodeInsns is).length →
    dumpLoop d endOff fuel sep off = printItems sep (heldItems (treesFrom off is))
  | [], off, fuel, sep, _, hf, _, he => by
    obtain ⟨k, rfl⟩ : ∃ k, fuel = k + 1 := ⟨fuel - 1, by simp at hf; omega⟩
    rw [dumpLoop, if_pos (by rw [he]; rfl), treesFrom, heldItems, printItems]
  | i :: is, off, fuel, sep, hi, hf, hd, he => by
    obtain ⟨k, rfl⟩ : ∃ k, fuel = k + 1 := ⟨fuel - 1, by simp at hf; omega⟩
    have ec : encodeInsns (i :: is) = i.encode ++ encodeInsns is := rfl
    rw [ec, List.append_assoc] at hd
    rw [ec, List.length_append] at he
    have hne := List.length_pos_iff.2 (encode_ne_nil i)
    obtain ⟨op, p, g1, g2⟩ := dump_insn d _ hw i (hi i (by simp)).1 (hi i (by simp)).2 off hd
    obtain ⟨e1, -, e3⟩ := tree_held (i.dwName, i.operands off) (plain_name i) (plain_labels i off)
    obtain ⟨t, p1, -⟩ := round_trip _ e3
    have ih := loop_prints d hw endOff rest is (off + i.encode.length) k ",\n".toList (fun x hx => hi x (by simp [hx]))
      (by simp at hf; omega) (drop_prefix hd) (by omega)
    have hdi : dumpInsn d off = .ok (t, off + i.encode.length) := by
      unfold dumpInsn
      rw [g1, Res.bind_ok]
      dsimp only
      rw [g2, Res.bind_ok]
      dsimp only
      rw [← e1, p1, Res.bind_ok, Res.pure_eq]
    rw [dumpLoop, if_neg (by omega), hdi, Res.bind_ok]
    dsimp only
    rw [ih, treesFrom, heldItems, printItems, p1, Res.bind_ok]

end Pstack.DumpCfa
