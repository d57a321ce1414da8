import Verif.Model.Expr
import Verif.Spec.ExprMeaning
import Verif.Proof.Cfa
namespace Pstack.Expr
open Pstack.Dwarf Pstack.Arch Pstack.Spec

@[simp] theorem Ev.pure_apply {α : Type} (a : α) (off : Nat) : (pure a : Ev α) off = .ok (a, off) := rfl

theorem Ev.bind_apply {α β : Type} (p : Ev α) (f : α → Ev β) (off : Nat) :
    (p >>= f) off = (p off) >>= fun x => f x.1 x.2 := rfl

theorem Ev.bind_ok {α β : Type} {p : Ev α} {f : α → Ev β} {off off' : Nat} {a : α}
    (h : p off = .ok (a, off')) : (p >>= f) off = f a off' := by
  rw [Ev.bind_apply, h]; rfl

theorem rd_ok {α : Type} {p : Parse α} {off off' : Nat} {a : α} (h : p off = .ok (a, off')) :
    rd p off = .ok (a, off') := by
  unfold rd; rw [h]; rfl

theorem run_ok {α : Type} {x : Out α} {off : Nat} {a : α} (h : x = .ok a) : run x off = .ok (a, off) := by
  subst h; rfl

theorem pop_push (s : St) (v : BitVec 64) : (s.push v).pop = .ok (v, s) := rfl

theorem word_eq (bs : List Byte) : word bs = BitVec.ofNat 64 (leNat bs) := by
  have := accumulate_spec bs 0#64
  unfold accumulate at this
  unfold word
  rw [List.foldl_reverse] at this
  rw [this]; simp

theorem readAddr_of {mem : Nat → Nat → Res (List Byte)} {a v : BitVec 64} (h : mem a.toNat 8 = .ok (leBytes 8 v.toNat)) :
    readAddr mem a = .ok v := by
  unfold readAddr
  rw [h]
  simp only [Out.ofRes, Out.bind_ok, leBytes_length, ne_eq, not_true_eq_false, if_false, word_eq, leNat_leBytes]
  congr 1
  apply BitVec.eq_of_toNat_eq
  have := v.isLt
  simp; omega

theorem gp_of {r : Regs} {reg : Int} {v : BitVec 64} (h : r.getDwarf reg = .ok (.u64 v)) : r.gp reg = .ok v := by
  unfold Regs.gp; rw [h]; rfl

theorem loop_step (env : Env) (d : List Byte) (reloc : BitVec 64) (fuel : Nat) (s s' : St) (off off' endOff : Nat)
    (op : Byte) (rest : List Byte) (h : d.drop off = op :: rest) (hne : off ≠ endOff)
    (hop : ∀ nested, evalOp env d reloc nested s op.toNat (off + 1) = .ok ((s', none), off')) :
    evalLoop env d reloc (fuel + 1) s off endOff = evalLoop env d reloc fuel s' off' endOff := by
  rw [evalLoop, if_neg hne, getu8_prefix d rest op off h]
  simp only [Out.ofRes, Out.bind_ok]
  rw [hop]
  rfl

theorem toInt_bounds (a : BitVec 64) : -2 ^ 63 ≤ a.toInt ∧ a.toInt < 2 ^ 63 := by
  have h1 := @BitVec.le_toInt 64 a
  have h2 := @BitVec.toInt_lt 64 a
  simp at h1 h2
  constructor <;> omega

theorem unop_den (op : UnOp) (a : BitVec 64) (h : op.Exact a) : unop op.code.toNat a = some (.ok (op.den a)) := by
  obtain ⟨b1, b2⟩ := toInt_bounds a
  cases op
  · simp only [UnOp.code, BitVec.reduceToNat, unop, signed, UnOp.Exact, UnOp.den] at h ⊢
    rw [if_pos (by omega), BitVec.ofInt_natCast]
  · simp only [UnOp.code, BitVec.reduceToNat, unop, signed, UnOp.Exact, UnOp.den] at h ⊢
    rw [if_pos (by omega)]
    congr 2
    apply BitVec.eq_of_toInt_eq
    rw [BitVec.toInt_ofInt, BitVec.toInt_neg]
  · rfl

theorem tdiv_bounds (x y : Int) (hx : -2 ^ 63 ≤ x ∧ x < 2 ^ 63) (hy : y ≠ 0) (h : ¬ (x = -2 ^ 63 ∧ y = -1)) :
    -2 ^ 63 ≤ x.tdiv y ∧ x.tdiv y < 2 ^ 63 := by
  have habs : (x.tdiv y).natAbs ≤ x.natAbs := by
    rw [Int.natAbs_tdiv]; exact Nat.div_le_self _ _
  by_cases hm : x = -2 ^ 63
  · subst hm
    have hy1 : y ≠ -1 := fun hh => h ⟨rfl, hh⟩
    by_cases hp : 0 < y
    · have : (-2 ^ 63 : Int).tdiv y ≤ 0 := by
        rw [show (-2 ^ 63 : Int) = -(2 ^ 63) by rfl, Int.neg_tdiv]
        have := Int.tdiv_nonneg (a := 2 ^ 63) (b := y) (by decide) (by omega)
        omega
      constructor <;> omega
    · have h2 : 2 ≤ y.natAbs := by omega
      have : ((-2 ^ 63 : Int).tdiv y).natAbs ≤ 2 ^ 62 := by
        rw [Int.natAbs_tdiv]
        have : (-2 ^ 63 : Int).natAbs / y.natAbs ≤ (-2 ^ 63 : Int).natAbs / 2 :=
          Nat.div_le_div_left h2 (by decide)
        exact this
      omega
  · omega

theorem toInt_eq_toNat (a : BitVec 64) (h : 0 ≤ a.toInt) : a.toInt = a.toNat := by
  rw [BitVec.toInt_eq_toNat_cond] at h ⊢
  split at h
  · rename_i h1; rw [if_pos h1]
  · have := a.isLt; omega

theorem lt_iff (a b : BitVec 64) (h : 0 ≤ a.toInt ↔ 0 ≤ b.toInt) : a.toNat < b.toNat ↔ a.toInt < b.toInt := by
  have ha := a.isLt; have hb := b.isLt
  rw [BitVec.toInt_eq_toNat_cond, BitVec.toInt_eq_toNat_cond] at *
  split at h <;> split at h <;> simp_all <;> omega

theorem binop_den (op : BinOp) (a b v : BitVec 64) (hd : op.den a b = some v) (h : op.Exact a b) :
    binop op.code.toNat a b = some (.ok v) := by
  have ba := toInt_bounds a
  have bb := toInt_bounds b
  cases op <;> simp only [BinOp.code, BitVec.reduceToNat, binop, BinOp.den, BinOp.Exact, Option.some.injEq] at h hd ⊢
  case and => rw [← hd, BitVec.and_comm]
  case or => rw [← hd, BitVec.or_comm]
  case xor => rw [← hd, BitVec.xor_comm]
  case plus => rw [← hd]
  case minus => rw [← hd]
  case mul =>
    rw [Int.mul_comm, signed, if_pos h, ← hd, BitVec.ofInt_mul]; simp
  case div =>
    split at hd
    · cases hd
    · rename_i hb
      have hbz : b ≠ 0#64 := hb
      rw [if_neg hbz, signed, if_pos, ← Option.some.inj hd]
      apply tdiv_bounds _ _ ba _ h
      intro hz
      exact hbz (BitVec.eq_of_toInt_eq (by simpa using hz))
  case mod =>
    split at hd
    · cases hd
    · rename_i hb
      have hbz : b ≠ 0#64 := hb
      have e1 := toInt_eq_toNat a h.1
      have e2 := toInt_eq_toNat b h.2
      rw [if_neg hbz, if_neg (by omega), e1, e2, ← Option.some.inj hd]
      have hm : (a.toNat : Int).tmod b.toNat = ((a.toNat % b.toNat : Nat) : Int) := by
        rw [Int.ofNat_tmod]
      rw [hm, signed, if_pos, BitVec.ofInt_natCast]
      have := Nat.mod_le a.toNat b.toNat
      omega
  case shl =>
    split at hd
    · rename_i hb
      rw [if_neg (by omega), ← Option.some.inj hd]
      congr 1
      apply BitVec.eq_of_toNat_eq
      simp [Nat.shiftLeft_eq]
    · cases hd
  case shr =>
    split at hd
    · rename_i hb
      rw [if_neg (by omega), ← Option.some.inj hd]
      congr 1
      apply BitVec.eq_of_toNat_eq
      simp [Nat.shiftRight_eq_div_pow]
      rw [Nat.mod_eq_of_lt]
      exact Nat.lt_of_le_of_lt (Nat.div_le_self _ _) a.isLt
    · cases hd
  case shra =>
    split at hd
    · rename_i hb
      rw [if_neg (by omega), ← Option.some.inj hd]
      congr 1
      rw [BitVec.sshiftRight, Int.shiftRight_eq_div_pow]
      simp
    · cases hd
  case eq => rw [← hd]; simp [truth]
  case ne => rw [← hd]; simp [truth]
  case lt => rw [← hd]; simp only [truth, decide_eq_true_eq, lt_iff a b h]
  case gt => rw [← hd]; simp only [truth, decide_eq_true_eq, gt_iff_lt, lt_iff b a h.symm]
  case le => 
    rw [← hd]
    have : a.toNat ≤ b.toNat ↔ a.toInt ≤ b.toInt := by have := lt_iff b a h.symm; omega
    simp only [truth, decide_eq_true_eq, this]
  case ge => 
    rw [← hd]
    have : b.toNat ≤ a.toNat ↔ b.toInt ≤ a.toInt := by have := lt_iff a b h; omega
    simp only [truth, decide_eq_true_eq, ge_iff_le, this]

/-- Number of operations. -/
def nops : Spec.Expr → Nat
  | .deref e => nops e + 1
  | .plusUconst e _ => nops e + 1
  | .un _ e => nops e + 1
  | .bin _ a b => nops a + nops b + 1
  | _ => 1

theorem nops_le (e : Spec.Expr) : nops e ≤ e.encode.length := by
  induction e <;> simp [nops, Spec.Expr.encode] <;> omega

theorem code_un (op : UnOp) : (unop op.code.toNat 0#64).isSome ∧ op.code.toNat < 0x30 := by
  cases op <;> decide +kernel

theorem code_bin (op : BinOp) : (unop op.code.toNat 0#64).isSome = false ∧ (binop op.code.toNat 0#64 0#64).isSome ∧ op.code.toNat < 0x30 := by
  cases op <;> refine ⟨rfl, rfl, by decide⟩

/-- Correctness of evaluation of encoded expressions. -/
theorem evalLoop_expr (env : Env) (d : List Byte) (hw : d.length < W64) (reloc : BitVec 64) (m : Machine)
    (hp : Provides env m reloc) (endOff : Nat) (e : Spec.Expr) : ∀ (rest : List Byte) (fuel off : Nat) (s : St) (v : BitVec 64),
    e.WF → e.Exact m → d.drop off = e.encode ++ rest → off + e.encode.length ≤ endOff → e.value m = some v →
    evalLoop env d reloc (fuel + nops e) s off endOff =
      evalLoop env d reloc fuel (s.push v) (off + e.encode.length) endOff := by
  induction e with
  | lit n =>
    intro rest fuel off s v hwf hex h hle hv
    simp only [Spec.Expr.value, Option.some.injEq] at hv
    subst hv
    have hn : n < 32 := hwf
    simp only [Spec.Expr.encode, List.cons_append, List.nil_append, List.length_cons, List.length_nil] at h hle ⊢
    refine loop_step env d reloc fuel s _ off _ endOff _ rest h (by omega) ?_
    intro nested
    have e1 : (BitVec.ofNat 8 (0x30 + n)).toNat = 0x30 + n := by simp; omega
    unfold evalOp
    rw [e1, if_pos (by omega), show 0x30 + n - 0x30 = n by omega]
    rfl
  | const2s n =>
    intro rest fuel off s v hwf hex h hle hv
    simp only [Spec.Expr.value, Option.some.injEq] at hv
    subst hv
    simp only [Spec.Expr.encode, List.cons_append, List.length_cons, leBytes_length] at h hle ⊢
    have h1 := drop_cons h
    refine loop_step env d reloc fuel s _ off _ endOff _ _ h (by omega) ?_
    intro nested
    have hn : -2 ^ 15 ≤ n ∧ n < 2 ^ 15 := hwf
    have e0 : (BitVec.ofInt 16 n).toNat = (n % 2 ^ 16).toNat := by simp
    simp [evalOp, unop, binop, -List.reverse_cons]
    rw [Ev.bind_ok (rd_ok (getu16_prefix d _ (BitVec.ofInt 16 n) (off + 1) (by rw [e0]; exact h1)))]
    rw [Ev.pure_apply]
    have e1 : (BitVec.ofInt 16 n).signExtend 64 = BitVec.ofInt 64 n := by
      apply BitVec.eq_of_toInt_eq
      rw [BitVec.toInt_signExtend_of_le (by decide), BitVec.toInt_ofInt, BitVec.toInt_ofInt, Int.bmod_eq_of_le (by omega) (by omega),
        Int.bmod_eq_of_le (by omega) (by omega)]
    rw [e1]
  | const4u n =>
    intro rest fuel off s v hwf hex h hle hv
    simp only [Spec.Expr.value, Option.some.injEq] at hv
    subst hv
    simp only [Spec.Expr.encode, List.cons_append, List.length_cons, leBytes_length] at h hle ⊢
    have h1 := drop_cons h
    refine loop_step env d reloc fuel s _ off _ endOff _ _ h (by omega) ?_
    intro nested
    have hn : n < 2 ^ 32 := hwf
    have e0 : (BitVec.ofNat 32 n).toNat = n := by rw [BitVec.toNat_ofNat]; exact Nat.mod_eq_of_lt hn
    simp [evalOp, unop, binop]
    rw [Ev.bind_ok (rd_ok (getu32_prefix d _ (BitVec.ofNat 32 n) (off + 1) (by rw [e0]; exact h1))), Ev.pure_apply]
    have e1 : (BitVec.ofNat 32 n).setWidth 64 = BitVec.ofNat 64 n := by
      apply BitVec.eq_of_toNat_eq; simp; omega
    rw [e1]
  | const4s n =>
    intro rest fuel off s v hwf hex h hle hv
    simp only [Spec.Expr.value, Option.some.injEq] at hv
    subst hv
    simp only [Spec.Expr.encode, List.cons_append, List.length_cons, leBytes_length] at h hle ⊢
    have h1 := drop_cons h
    refine loop_step env d reloc fuel s _ off _ endOff _ _ h (by omega) ?_
    intro nested
    have hn : -2 ^ 31 ≤ n ∧ n < 2 ^ 31 := hwf
    have e0 : (BitVec.ofInt 32 n).toNat = (n % 2 ^ 32).toNat := by simp
    simp [evalOp, unop, binop]
    rw [Ev.bind_ok (rd_ok (getu32_prefix d _ (BitVec.ofInt 32 n) (off + 1) (by rw [e0]; exact h1))), Ev.pure_apply]
    have e1 : (BitVec.ofInt 32 n).signExtend 64 = BitVec.ofInt 64 n := by
      apply BitVec.eq_of_toInt_eq
      rw [BitVec.toInt_signExtend_of_le (by decide), BitVec.toInt_ofInt, BitVec.toInt_ofInt, Int.bmod_eq_of_le (by omega) (by omega),
        Int.bmod_eq_of_le (by omega) (by omega)]
    rw [e1]
  | constu n =>
    intro rest fuel off s v hwf hex h hle hv
    simp only [Spec.Expr.value, Option.some.injEq] at hv
    subst hv
    simp only [Spec.Expr.encode, List.cons_append, List.length_cons, leBytes_length] at h hle ⊢
    have h1 := drop_cons h
    refine loop_step env d reloc fuel s _ off _ endOff _ _ h (by omega) ?_
    intro nested
    have hn : n < 2 ^ 64 := hwf
    simp [evalOp, unop, binop]
    rw [Ev.bind_ok (rd_ok (ulebN d _ n hn (off + 1) h1 hw)), Ev.pure_apply]
    congr 2; omega
  | consts n =>
    intro rest fuel off s v hwf hex h hle hv
    simp only [Spec.Expr.value, Option.some.injEq] at hv
    subst hv
    simp only [Spec.Expr.encode, List.cons_append, List.length_cons, leBytes_length] at h hle ⊢
    have h1 := drop_cons h
    refine loop_step env d reloc fuel s _ off _ endOff _ _ h (by omega) ?_
    intro nested
    have hn : -2 ^ 63 ≤ n ∧ n < 2 ^ 63 := hwf
    simp [evalOp, unop, binop]
    rw [Ev.bind_ok (rd_ok (slebI d _ n hn.1 hn.2 (off + 1) h1 hw)), Ev.pure_apply]
    congr 2; omega
  | addr a =>
    intro rest fuel off s v hwf hex h hle hv
    simp only [Spec.Expr.value, Option.some.injEq] at hv
    subst hv
    simp only [Spec.Expr.encode, List.cons_append, List.length_cons, leBytes_length] at h hle ⊢
    have h1 := drop_cons h
    refine loop_step env d reloc fuel s _ off _ endOff _ _ h (by omega) ?_
    intro nested
    have hn : a < 2 ^ 64 := hwf
    simp [evalOp, unop, binop]
    rw [Ev.bind_ok (rd_ok (getuint_leBytes d _ (off + 1) 8 a (by decide) hn h1)), Ev.pure_apply, hp.reloc]
  | breg r o =>
    intro rest fuel off s v hwf hex h hle hv
    simp only [Spec.Expr.value, Option.map_eq_some_iff] at hv
    obtain ⟨w, hw1, rfl⟩ := hv
    obtain ⟨hr, ho⟩ : r < 32 ∧ -2 ^ 63 ≤ o ∧ o < 2 ^ 63 := hwf
    simp only [Spec.Expr.encode, List.cons_append, List.length_cons] at h hle ⊢
    have h1 := drop_cons h
    refine loop_step env d reloc fuel s _ off _ endOff _ _ h (by omega) ?_
    intro nested
    have e1 : (BitVec.ofNat 8 (0x70 + r)).toNat = 0x70 + r := by simp; omega
    unfold evalOp
    rw [e1, if_neg (by omega), if_neg (by omega), if_pos (by omega)]
    rw [Ev.bind_ok (rd_ok (slebI d _ o ho.1 ho.2 (off + 1) h1 hw))]
    rw [Ev.bind_ok (run_ok (a := w) (by rw [show 0x70 + r - 0x70 = r by omega]; exact gp_of (hp.reg r w hw1))), Ev.pure_apply]
    congr 2; omega
  | fbreg o =>
    intro rest fuel off s v hwf hex h hle hv
    simp only [Spec.Expr.value, Option.map_eq_some_iff] at hv
    obtain ⟨w, hw1, rfl⟩ := hv
    have ho : -2 ^ 63 ≤ o ∧ o < 2 ^ 63 := hwf
    simp only [Spec.Expr.encode, List.cons_append, List.length_cons] at h hle ⊢
    have h1 := drop_cons h
    refine loop_step env d reloc fuel s _ off _ endOff _ _ h (by omega) ?_
    intro nested
    simp [evalOp, unop, binop]
    rw [Ev.bind_ok (run_ok (hp.frameBase w hw1))]
    rw [Ev.bind_ok (rd_ok (slebI d _ o ho.1 ho.2 (off + 1) h1 hw)), Ev.pure_apply]
    congr 2; omega
  | cfa =>
    intro rest fuel off s v hwf hex h hle hv
    simp only [Spec.Expr.value, Option.some.injEq] at hv
    subst hv
    simp only [Spec.Expr.encode, List.cons_append, List.nil_append, List.length_cons, List.length_nil] at h hle ⊢
    refine loop_step env d reloc fuel s _ off _ endOff _ _ h (by omega) ?_
    intro nested
    simp [evalOp, unop, binop, hp.cfa]
  | deref e ih =>
    intro rest fuel off s v hwf hex h hle hv
    simp only [Spec.Expr.value, Option.bind_eq_some_iff] at hv
    obtain ⟨a, ha, hv⟩ := hv
    simp only [Spec.Expr.encode, List.append_assoc, List.cons_append, List.nil_append, List.length_append, List.length_cons,
      List.length_nil, nops] at h hle ⊢
    rw [show fuel + (nops e + 1) = (fuel + 1) + nops e by omega, ih _ (fuel + 1) off s a hwf hex h (by omega) ha]
    have h1 := drop_prefix h
    refine loop_step env d reloc fuel _ _ _ _ endOff _ _ h1 (by omega) ?_
    intro nested
    simp [evalOp, unop, binop]
    rw [Ev.bind_ok (run_ok (pop_push s a)), Ev.bind_ok (run_ok (readAddr_of (hp.word a v hv))), Ev.pure_apply]
    congr 2
  | plusUconst e n ih =>
    intro rest fuel off s v hwf hex h hle hv
    simp only [Spec.Expr.value, Option.map_eq_some_iff] at hv
    obtain ⟨a, ha, rfl⟩ := hv
    simp only [Spec.Expr.encode, List.append_assoc, List.cons_append, List.length_append, List.length_cons, nops] at h hle ⊢
    rw [show fuel + (nops e + 1) = (fuel + 1) + nops e by omega, ih _ (fuel + 1) off s a hwf.1 hex h (by omega) ha]
    have h1 := drop_prefix h
    have h2 := drop_cons h1
    refine loop_step env d reloc fuel _ _ _ _ endOff _ _ h1 (by omega) ?_
    intro nested
    simp [evalOp, unop, binop]
    rw [Ev.bind_ok (rd_ok (ulebN d _ n hwf.2 _ h2 hw)), Ev.bind_ok (run_ok (pop_push s a)), Ev.pure_apply, BitVec.add_comm]
    congr 2; omega
  | un op e ih =>
    intro rest fuel off s v hwf hex h hle hv
    simp only [Spec.Expr.value, Option.map_eq_some_iff] at hv
    obtain ⟨a, ha, rfl⟩ := hv
    simp only [Spec.Expr.encode, List.append_assoc, List.cons_append, List.nil_append, List.length_append, List.length_cons,
      List.length_nil, nops] at h hle ⊢
    rw [show fuel + (nops e + 1) = (fuel + 1) + nops e by omega, ih _ (fuel + 1) off s a hwf hex.1 h (by omega) ha]
    have h1 := drop_prefix h
    refine loop_step env d reloc fuel _ _ _ _ endOff _ _ h1 (by omega) ?_
    intro nested
    obtain ⟨c1, c2⟩ := code_un op
    unfold evalOp
    rw [if_neg (by omega), if_neg (by omega), if_neg (by omega), if_pos c1]
    rw [Ev.bind_ok (run_ok (pop_push s a))]
    dsimp only
    rw [Ev.bind_ok (run_ok (a := op.den a) (by rw [unop_den op a (hex.2 a ha)]; rfl)), Ev.pure_apply]
    congr 2
  | bin op ea eb iha ihb =>
    intro rest fuel off s v hwf hex h hle hv
    simp only [Spec.Expr.value] at hv
    obtain ⟨a, ha, hv⟩ := Option.bind_eq_some_iff.1 hv
    obtain ⟨b, hb, hv⟩ := Option.bind_eq_some_iff.1 hv
    simp only [Spec.Expr.encode, List.append_assoc, List.cons_append, List.nil_append, List.length_append, List.length_cons,
      List.length_nil, nops] at h hle ⊢
    rw [show fuel + (nops ea + nops eb + 1) = (fuel + 1 + nops eb) + nops ea by omega,
      iha _ (fuel + 1 + nops eb) off s a hwf.1 hex.1 h (by omega) ha]
    have h1 := drop_prefix h
    rw [ihb _ (fuel + 1) _ _ b hwf.2 hex.2.1 h1 (by omega) hb]
    have h2 := drop_prefix h1
    refine loop_step env d reloc fuel _ _ _ _ endOff _ _ h2 (by omega) ?_
    intro nested
    obtain ⟨c1, c2, c3⟩ := code_bin op
    unfold evalOp
    rw [if_neg (by omega), if_neg (by omega), if_neg (by omega), if_neg (by rw [c1]; decide), if_pos c2]
    rw [Ev.bind_ok (run_ok (pop_push (s.push a) b))]
    dsimp only
    rw [Ev.bind_ok (run_ok (pop_push s a))]
    dsimp only
    rw [Ev.bind_ok (run_ok (a := v) (by rw [binop_den op a b v hv (hex.2.2 a b ha hb)]; rfl)), Ev.pure_apply]
    congr 2; omega
end Pstack.Expr

namespace Pstack.Expr
open Pstack.Dwarf Pstack.Arch Pstack.Spec Pstack.Reader

/-! ### Termination on arbitrary bytes -/

theorem leb128_len {sg : Bool} {over : Res (BitVec 64 × Nat)} (hover : ∀ x, over ≠ .ok x) : ∀ (bs : List Byte) (n : Nat)
    (r : BitVec 64) (v : BitVec 64) (k : Nat), leb128 sg over bs n r = .ok (v, k) → n < k ∧ k ≤ n + bs.length
  | [], n, r, v, k, h => absurd h (hover _)
  | b :: bs, n, r, v, k, h => by
      unfold leb128 at h
      dsimp only at h
      split at h
      · cases h
      · split at h
        · cases h; simp
        · have := leb128_len hover bs _ _ _ _ h
          simp; omega

/-- A cursor operation never moves backwards. -/
def Fwd {α : Type} (p : Parse α) : Prop := ∀ off a off', p off = .ok (a, off') → off ≤ off'

theorem fwd_getBytes (d : List Byte) (n : Nat) : Fwd (getBytes d n) := by
  intro off a off' h
  unfold getBytes at h
  split at h
  · cases h; omega
  · split at h <;> cases h
    omega

theorem Fwd.bind {α β : Type} {p : Parse α} {f : α → Parse β} (hp : Fwd p) (hf : ∀ a, Fwd (f a)) : Fwd (p >>= f) := by
  intro off b off' h
  rw [Parse.bind_apply] at h
  obtain ⟨⟨a, o⟩, h1, h2⟩ := Res.bind_eq_ok.1 h
  have := hp _ _ _ h1
  have := hf _ _ _ _ h2
  omega

theorem Fwd.pure {α : Type} (a : α) : Fwd (Pure.pure a : Parse α) := by
  intro off b off' h; cases h; omega

theorem Fwd.throw {α : Type} : Fwd (throwExc : Parse α) := by
  intro off b off' h; cases h

theorem fwd_getu16 (d : List Byte) : Fwd (getu16 d) := by
  apply (fwd_getBytes d 2).bind; intro q; split
  · exact Fwd.pure _
  · exact Fwd.throw

theorem fwd_getu32 (d : List Byte) : Fwd (getu32 d) := by
  apply (fwd_getBytes d 4).bind; intro q; split
  · exact Fwd.pure _
  · exact Fwd.throw

theorem fwd_getuint (d : List Byte) (n : Nat) : Fwd (getuint d n) := by
  unfold getuint
  split
  · exact Fwd.throw
  · exact (fwd_getBytes d n).bind fun _ => Fwd.pure _

theorem fwd_getuleb (d : List Byte) (hw : d.length < W64) : Fwd (getuleb128 d) := by
  intro off a off' h
  unfold getuleb128 readULEB128 at h
  split at h <;> cases h
  rename_i v n hh
  have := leb128_len (by simp) _ _ _ _ _ hh
  rw [List.length_drop] at this
  rw [Nat.mod_eq_of_lt (by omega)]; omega

theorem fwd_getsleb (d : List Byte) (hw : d.length < W64) : Fwd (getsleb128 d) := by
  intro off a off' h
  unfold getsleb128 readSLEB128 at h
  split at h <;> cases h
  rename_i v n hh
  have := leb128_len (by simp) _ _ _ _ _ hh
  rw [List.length_drop] at this
  rw [Nat.mod_eq_of_lt (by omega)]; omega

theorem fwd_getOffset : Fwd getOffset := by
  intro off a off' h; cases h; omega

/-- The same for evaluator steps. -/
def FwdE {α : Type} (p : Ev α) : Prop := ∀ off a off', p off = .ok (a, off') → off ≤ off'

theorem FwdE.bind {α β : Type} {p : Ev α} {f : α → Ev β} (hp : FwdE p) (hf : ∀ a, FwdE (f a)) : FwdE (p >>= f) := by
  intro off b off' h
  rw [Ev.bind_apply] at h
  obtain ⟨⟨a, o⟩, h1, h2⟩ := Out.bind_eq_ok.1 h
  have := hp _ _ _ h1
  have := hf _ _ _ _ h2
  omega

theorem FwdE.pure {α : Type} (a : α) : FwdE (Pure.pure a : Ev α) := by
  intro off b off' h; cases h; omega

theorem FwdE.rd {α : Type} {p : Parse α} (h : Fwd p) : FwdE (rd p) := by
  intro off a off' hh
  unfold Expr.rd at hh
  cases hx : p off with
  | ok x => rw [hx] at hh; cases hh; exact h _ _ _ hx
  | _ => rw [hx] at hh; cases hh

theorem FwdE.run {α : Type} (x : Out α) : FwdE (run x) := by
  intro off a off' hh
  unfold Expr.run at hh
  cases x <;> simp at hh
  omega

theorem fwd_evalOp (env : Env) (d : List Byte) (hw : d.length < W64) (reloc : BitVec 64)
    (nested : St → Nat → Nat → Out (St × BitVec 64)) (s : St) (op : Nat) : FwdE (evalOp env d reloc nested s op) := by
  unfold evalOp
  repeat' split
  all_goals first
    | with_reducible exact FwdE.pure _
    | with_reducible exact FwdE.rd Fwd.throw
    | (repeat' first
        | with_reducible exact FwdE.pure _
        | with_reducible exact FwdE.run _
        | with_reducible exact FwdE.rd (fwd_getu16 d)
        | with_reducible exact FwdE.rd (fwd_getu32 d)
        | with_reducible exact FwdE.rd (fwd_getuint d _)
        | with_reducible exact FwdE.rd (fwd_getuleb d hw)
        | with_reducible exact FwdE.rd (fwd_getsleb d hw)
        | with_reducible exact FwdE.rd fwd_getOffset
        | (refine FwdE.bind ?_ (fun _ => ?_)))

set_option maxRecDepth 4000 in
/-- Only calls of `nested` at or after the cursor matter. -/
theorem evalOp_congr (env : Env) (d : List Byte) (hw : d.length < W64) (reloc : BitVec 64)
    (n1 n2 : St → Nat → Nat → Out (St × BitVec 64)) (s : St) (op off : Nat)
    (h : ∀ s o e, off ≤ o → n1 s o e = n2 s o e) :
    evalOp env d reloc n1 s op off = evalOp env d reloc n2 s op off := by
  have key : ∀ (s : St), (do
      let len ← rd (getuleb128 d)
      let off ← rd getOffset
      let (s, v) ← run (n1 s off ((off + len.toNat) % W64))
      pure (s.push v, none) : Ev Next) off = (do
      let len ← rd (getuleb128 d)
      let off ← rd getOffset
      let (s, v) ← run (n2 s off ((off + len.toNat) % W64))
      pure (s.push v, none) : Ev Next) off := by
    intro s
    rw [Ev.bind_apply, Ev.bind_apply]
    cases hx : rd (getuleb128 d) off with
    | ok x =>
      obtain ⟨len, o⟩ := x
      have ho := FwdE.rd (fwd_getuleb d hw) _ _ _ hx
      simp only [Out.bind_ok]
      rw [Ev.bind_ok (rd_ok (show getOffset o = .ok (o, o) from rfl)), Ev.bind_ok (rd_ok (show getOffset o = .ok (o, o) from rfl))]
      rw [h s o _ ho]
    | _ => rfl
  unfold evalOp
  repeat' split
  all_goals first | rfl | exact key s

theorem evalLoop_fuel (env : Env) (d : List Byte) (hw : d.length < W64) (reloc : BitVec 64) :
    ∀ (n : Nat) (f1 f2 : Nat) (s : St) (off endOff : Nat), n = d.length - off → n < f1 → n < f2 →
      evalLoop env d reloc f1 s off endOff = evalLoop env d reloc f2 s off endOff := by
  intro n
  induction n using Nat.strongRecOn with
  | ind n ih =>
    intro f1 f2 s off endOff hn h1 h2
    obtain ⟨f1, rfl⟩ : ∃ k, f1 = k + 1 := ⟨f1 - 1, by omega⟩
    obtain ⟨f2, rfl⟩ : ∃ k, f2 = k + 1 := ⟨f2 - 1, by omega⟩
    rw [evalLoop, evalLoop]
    by_cases he : off = endOff
    · rw [if_pos he, if_pos he]
    · rw [if_neg he, if_neg he]
      by_cases hl : off < d.length
      · rw [getu8_prefix d (d.drop (off + 1)) d[off] off (List.drop_eq_getElem_cons hl)]
        simp only [Out.ofRes, Out.bind_ok]
        have hc := evalOp_congr env d hw reloc
          (fun s off endOff => do
            let (s', v) ← evalLoop env d reloc f1 { s with isValue := false, piece := 0 } off endOff
            return ({ s' with piece := s.piece }, v))
          (fun s off endOff => do
            let (s', v) ← evalLoop env d reloc f2 { s with isValue := false, piece := 0 } off endOff
            return ({ s' with piece := s.piece }, v)) s (d[off]).toNat (off + 1) (by
              intro s o e ho
              simp only
              rw [ih (d.length - o) (by omega) f1 f2 _ o e rfl (by omega) (by omega)])
        rw [hc]
        cases hx : evalOp env d reloc (fun s off endOff => do
            let (s', v) ← evalLoop env d reloc f2 { s with isValue := false, piece := 0 } off endOff
            return ({ s' with piece := s.piece }, v)) s (d[off]).toNat (off + 1) with
        | ok x =>
          obtain ⟨⟨s', r⟩, o⟩ := x
          have ho := fwd_evalOp env d hw reloc _ _ _ _ _ _ hx
          simp only [Out.bind_ok]
          cases r with
          | some v => rfl
          | none => exact ih (d.length - o) (by omega) f1 f2 _ o endOff rfl (by omega) (by omega)
        | _ => rfl
      · rw [getu8_exc d off (by omega)]
        rfl

end Pstack.Expr
