import Verif.Proof.Expr
import Verif.Spec.Pieces
namespace Pstack.Expr
open Pstack.Dwarf Pstack.Arch Pstack.Spec

theorem evalLoop_end (env : Env) (d : List Byte) (reloc : BitVec 64) (fuel : Nat) (s : St) (v : BitVec 64) (off : Nat) :
    evalLoop env d reloc (fuel + 1) (s.push v) off off = .ok (s, v) := by
  rw [evalLoop, if_pos rfl]; rfl

theorem len_of_drop {d bs rest : List Byte} {off : Nat} (h : d.drop off = bs ++ rest) : off + bs.length ≤ d.length ∨ bs = [] := by
  have := congrArg List.length h
  simp only [List.length_drop, List.length_append] at this
  cases bs with
  | nil => exact .inr rfl
  | cons b bs => left; simp only [List.length_cons] at *; omega

theorem len_of_drop' {d bs rest : List Byte} {off : Nat} (h : d.drop off = bs ++ rest) : bs.length ≤ d.length := by
  have := congrArg List.length h
  simp only [List.length_drop, List.length_append] at this
  omega

/-- An operator applied to two evaluated operands. -/
theorem eval_bin (env : Env) (d : List Byte) (hw : d.length < W64) (reloc : BitVec 64) (m : Machine)
    (hp : Provides env m reloc) (op : BinOp) (ea eb : Spec.Expr) (a b : BitVec 64) (rest : List Byte) (stack : List (BitVec 64))
    (inReg off : Nat) (hwa : ea.WF) (hwb : eb.WF) (hxa : ea.Exact m) (hxb : eb.Exact m)
    (ha : ea.value m = some a) (hb : eb.value m = some b)
    (h : d.drop off = (Spec.Expr.bin op ea eb).encode ++ rest) :
    eval env d reloc stack inReg off (off + (Spec.Expr.bin op ea eb).encode.length) =
      ((binop op.code.toNat a b).getD .exc >>= fun v => .ok (⟨stack, false, inReg, 0⟩, v)) := by
  have hl := len_of_drop' h
  have hna := nops_le ea
  have hnb := nops_le eb
  unfold eval
  simp only [Spec.Expr.encode, List.append_assoc, List.cons_append, List.nil_append, List.length_append, List.length_cons,
    List.length_nil] at h hl ⊢
  generalize hE : off + (ea.encode.length + (eb.encode.length + (0 + 1))) = endOff
  obtain ⟨k, hk⟩ : ∃ k, d.length + 1 = (k + 1 + 1 + nops eb) + nops ea := ⟨d.length + 1 - nops ea - nops eb - 2, by omega⟩
  rw [hk, evalLoop_expr env d hw reloc m hp endOff ea _ _ off _ a hwa hxa h (by omega) ha]
  have h1 := drop_prefix h
  rw [evalLoop_expr env d hw reloc m hp endOff eb _ _ _ _ b hwb hxb h1 (by omega) hb]
  have h2 := drop_prefix h1
  rw [evalLoop, if_neg (by omega), getu8_prefix d _ _ _ h2]
  simp only [Out.ofRes, Out.bind_ok]
  obtain ⟨c1, c2, c3⟩ := code_bin op
  unfold evalOp
  rw [if_neg (by omega), if_neg (by omega), if_neg (by omega), if_neg (by rw [c1]; decide), if_pos c2]
  rw [Ev.bind_ok (run_ok (pop_push _ b))]
  dsimp only
  rw [Ev.bind_ok (run_ok (pop_push _ a))]
  dsimp only
  cases hx : (binop op.code.toNat a b).getD .exc with
  | ok v =>
    rw [Ev.bind_ok (run_ok rfl), Ev.pure_apply]
    simp only [Out.bind_ok]
    have : off + ea.encode.length + eb.encode.length + 1 = endOff := by omega
    rw [this]
    exact evalLoop_end ..
  | _ => rfl

/-- A register-location operation. -/
theorem regOp_step (env : Env) (d : List Byte) (reloc : BitVec 64) (fuel : Nat) (s : St) (off endOff n : Nat)
    (rest : List Byte) (v : BitVec 64) (hn : n < 32) (hv : env.regs.getDwarf (n : Int) = .ok (.u64 v))
    (h : d.drop off = BitVec.ofNat 8 (0x50 + n) :: rest) (hne : off ≠ endOff) :
    evalLoop env d reloc (fuel + 1) s off endOff =
      evalLoop env d reloc fuel ({ s with isValue := true, inReg := n }.push v) (off + 1) endOff := by
  refine loop_step env d reloc fuel s _ off _ endOff _ rest h hne ?_
  intro nested
  have e1 : (BitVec.ofNat 8 (0x50 + n)).toNat = 0x50 + n := by simp; omega
  unfold evalOp
  rw [e1, if_neg (by omega), if_pos (by omega), show 0x50 + n - 0x50 = n by omega, Ev.bind_ok (run_ok (gp_of hv)), Ev.pure_apply]

theorem mask_low (v : BitVec 64) (n : Nat) :
    (v &&& ~~~ (if n < 8 then BitVec.allOnes 64 <<< (8 * n) else 0#64)).toNat = v.toNat % 256 ^ n := by
  split
  · rename_i h
    have : n = 0 ∨ n = 1 ∨ n = 2 ∨ n = 3 ∨ n = 4 ∨ n = 5 ∨ n = 6 ∨ n = 7 := by omega
    have key : ∀ k, k < 64 → (v &&& ~~~ (BitVec.allOnes 64 <<< k)).toNat = v.toNat % 2 ^ k := by
      intro k hk
      apply Nat.eq_of_testBit_eq
      intro i
      rw [Nat.testBit_mod_two_pow, ← BitVec.getLsbD, ← BitVec.getLsbD]
      simp only [BitVec.getLsbD_and, BitVec.getLsbD_not, BitVec.getLsbD_shiftLeft, BitVec.getLsbD_allOnes]
      by_cases hi : i < 64
      · by_cases hik : i < k
        · simp [hi, hik]
        · simp [hi, hik]; omega
      · simp [hi, BitVec.getLsbD_of_ge v i (by omega)]
    rw [key _ (by omega), show (256 : Nat) = 2 ^ 8 from rfl, ← Nat.pow_mul]
  · rename_i h
    have hl := v.isLt
    have : 2 ^ 64 ≤ 256 ^ n := by
      rw [show (256 : Nat) = 2 ^ 8 from rfl, ← Nat.pow_mul]
      exact Nat.pow_le_pow_right (by decide) (by omega)
    rw [Nat.mod_eq_of_lt (by omega)]
    congr 1
    rw [show ~~~ 0#64 = BitVec.allOnes 64 from rfl, BitVec.and_allOnes]

theorem or_shift (v w : BitVec 64) (k : Nat) (hk : k < 64) (hv : v.toNat < 2 ^ k) :
    (v ||| w <<< k).toNat = (w.toNat * 2 ^ k + v.toNat) % 2 ^ 64 := by
  rw [BitVec.toNat_or, BitVec.toNat_shiftLeft, Nat.or_comm]
  have h1 : (w.toNat <<< k) % 2 ^ 64 = (w.toNat % 2 ^ (64 - k)) <<< k := by
    rw [Nat.shiftLeft_eq, Nat.shiftLeft_eq]
    have : 2 ^ 64 = 2 ^ (64 - k) * 2 ^ k := by rw [← Nat.pow_add]; congr 1; omega
    rw [this, Nat.mul_mod_mul_right]
  rw [h1, ← Nat.shiftLeft_add_eq_or_of_lt hv, Nat.shiftLeft_eq]
  have h2 : 2 ^ 64 = 2 ^ (64 - k) * 2 ^ k := by rw [← Nat.pow_add]; congr 1; omega
  rw [h2]
  have h3 : (w.toNat * 2 ^ k + v.toNat) % (2 ^ (64 - k) * 2 ^ k) = (w.toNat % 2 ^ (64 - k)) * 2 ^ k + v.toNat := by
    rw [Nat.mul_comm (2 ^ (64 - k)), Nat.mod_mul]
    rw [Nat.mul_comm w.toNat, Nat.mul_add_mod, Nat.mod_eq_of_lt hv, Nat.mul_add_div (Nat.two_pow_pos k), Nat.div_eq_of_lt hv]
    simp [Nat.mul_comm, Nat.add_comm]
  rw [h3]

theorem pieceOp_first (s : St) (v bytes : BitVec 64) (h : s.piece = 0) :
    ∃ w : BitVec 64, pieceOp (s.push v) bytes = .ok ({ s with piece := 1 }.push w) ∧ w.toNat = v.toNat % 256 ^ bytes.toNat := by
  refine ⟨_, ?_, mask_low v bytes.toNat⟩
  unfold pieceOp
  rw [pop_push]
  simp [h]

theorem pieceOp_next (s : St) (acc v bytes : BitVec 64) (h : s.piece ≠ 0) (hb : bytes.toNat < 8) :
    ∃ w : BitVec 64, pieceOp ((s.push acc).push v) bytes = .ok ({ s with piece := s.piece + 1 }.push w) ∧
      w.toNat = (acc.toNat * 256 ^ bytes.toNat + v.toNat % 256 ^ bytes.toNat) % 2 ^ 64 := by
  have e1 : (8 * bytes.toNat) % 2 ^ 64 = 8 * bytes.toNat := by omega
  have e2 : (256 : Nat) ^ bytes.toNat = 2 ^ (8 * bytes.toNat) := by
    rw [show (256 : Nat) = 2 ^ 8 from rfl, ← Nat.pow_mul]
  have e3 := mask_low v bytes.toNat
  refine ⟨(v &&& ~~~ (if bytes.toNat < 8 then BitVec.allOnes 64 <<< (8 * bytes.toNat) else 0#64)) ||| acc <<< (8 * bytes.toNat),
    ?_, ?_⟩
  rotate_left
  · rw [e2] at e3 ⊢
    rw [← e3]
    exact or_shift _ acc (8 * bytes.toNat) (by omega) (by rw [e3]; exact Nat.mod_lt _ (Nat.two_pow_pos _))
  · unfold pieceOp
    rw [pop_push]
    simp only [Out.bind_ok, St.push, ne_eq, h, not_false_eq_true, if_true, e1, ge_iff_le, if_neg (show ¬ 64 ≤ 8 * bytes.toNat by omega)]
    rfl

theorem pieceOp_step (env : Env) (d : List Byte) (hw : d.length < W64) (reloc : BitVec 64) (fuel : Nat) (s s' : St)
    (off endOff n : Nat) (rest : List Byte) (hn : n < 2 ^ 64) (h : d.drop off = 0x93#8 :: (encodeU n ++ rest)) (hne : off ≠ endOff)
    (hs : pieceOp s (BitVec.ofNat 64 n) = .ok s') :
    evalLoop env d reloc (fuel + 1) s off endOff =
      evalLoop env d reloc fuel s' (off + 1 + (encodeU n).length) endOff := by
  refine loop_step env d reloc fuel s _ off _ endOff _ _ h hne ?_
  intro nested
  have h1 := drop_cons h
  simp [evalOp, unop, binop]
  rw [Ev.bind_ok (rd_ok (ulebN d _ n hn (off + 1) h1 hw)), Ev.bind_ok (run_ok hs), Ev.pure_apply]

/-- Big-endian composition onto an accumulator. -/
def beFold (reg : Nat → BitVec 64) : Nat → List Piece → Nat
  | acc, [] => acc
  | acc, p :: ps => beFold reg (acc * 256 ^ p.bytes + (reg p.reg).toNat % 256 ^ p.bytes) ps

theorem beFold_mod (reg : Nat → BitVec 64) (ps : List Piece) : ∀ a b, a % 2 ^ 64 = b % 2 ^ 64 →
    beFold reg a ps % 2 ^ 64 = beFold reg b ps % 2 ^ 64 := by
  induction ps with
  | nil => intro a b h; exact h
  | cons p ps ih =>
    intro a b h
    refine ih _ _ ?_
    rw [Nat.add_mod, Nat.mul_mod, h, ← Nat.mul_mod, ← Nat.add_mod]

theorem composite_append (reg : Nat → BitVec 64) (xs : List Piece) (p : Piece) :
    composite reg (xs ++ [p]) = composite reg xs + 256 ^ ((xs.map Piece.bytes).sum) * ((reg p.reg).toNat % 256 ^ p.bytes) := by
  induction xs with
  | nil => simp [composite]
  | cons x xs ih =>
    simp only [List.cons_append, composite, ih, List.map_cons, List.sum_cons, Nat.pow_add]
    rw [Nat.mul_add, Nat.mul_assoc]; omega

theorem beFold_eq (reg : Nat → BitVec 64) (ps : List Piece) : ∀ acc,
    beFold reg acc ps = composite reg ps.reverse + 256 ^ ((ps.map Piece.bytes).sum) * acc := by
  induction ps with
  | nil => intro acc; simp [beFold, composite]
  | cons p ps ih =>
    intro acc
    rw [beFold, ih]
    simp only [List.reverse_cons, composite_append, List.map_cons, List.sum_cons, List.map_reverse, List.sum_reverse]
    rw [Nat.mul_add, Nat.add_comm p.bytes, Nat.pow_add, Nat.mul_assoc, Nat.mul_comm acc]
    omega

theorem evalLoop_pieces (env : Env) (d : List Byte) (hw : d.length < W64) (reloc : BitVec 64) (endOff : Nat)
    (reg : Nat → BitVec 64) (ps : List Piece) (rest : List Byte) : ∀ (fuel off : Nat) (s : St) (acc : BitVec 64),
    s.piece ≠ 0 →
    (∀ p ∈ ps, p.reg < 32 ∧ p.bytes < 8 ∧ env.regs.getDwarf (p.reg : Int) = .ok (.u64 (reg p.reg))) →
    d.drop off = encodePieces ps ++ rest → off + (encodePieces ps).length = endOff →
    ∃ s', evalLoop env d reloc (fuel + 2 * ps.length + 1) (s.push acc) off endOff =
      .ok (s', BitVec.ofNat 64 (beFold reg acc.toNat ps)) ∧ s'.stack = s.stack := by
  induction ps with
  | nil =>
    intro fuel off s acc hp hps h hE
    simp only [encodePieces, List.length_nil, Nat.add_zero] at hE
    subst hE
    refine ⟨s, ?_, rfl⟩
    rw [evalLoop_end]
    simp [beFold]
  | cons p ps ih =>
    intro fuel off s acc hp hps h hE
    obtain ⟨h1, h2, h3⟩ := hps p (List.mem_cons_self ..)
    simp only [encodePieces, List.cons_append, List.append_assoc, List.length_cons, List.length_append] at h hE
    rw [show fuel + 2 * (p :: ps).length + 1 = (fuel + 2 * ps.length + 1) + 1 + 1 by simp; omega]
    rw [regOp_step env d reloc _ _ off endOff p.reg _ _ h1 h3 h (by omega)]
    have hd1 := drop_cons h
    obtain ⟨w, hw1, hw2⟩ := pieceOp_next { s with isValue := true, inReg := p.reg } acc (reg p.reg) (BitVec.ofNat 64 p.bytes) hp
      (by simp; omega)
    erw [pieceOp_step env d hw reloc _ _ _ _ endOff p.bytes _ (by omega) hd1 (by omega) hw1]
    have hd2 := drop_prefix (drop_cons hd1)
    obtain ⟨s', hs', hst⟩ := ih fuel _ { s with isValue := true, inReg := p.reg, piece := s.piece + 1 } w (by simp)
      (fun q hq => hps q (List.mem_cons_of_mem _ hq)) hd2 (by omega)
    refine ⟨s', ?_, hst⟩
    rw [hs']
    congr 2
    apply BitVec.eq_of_toNat_eq
    rw [BitVec.toNat_ofNat, BitVec.toNat_ofNat, beFold]
    apply beFold_mod
    have e : (BitVec.ofNat 64 p.bytes).toNat = p.bytes := by simp; omega
    rw [e] at hw2
    rw [hw2, Nat.mod_mod]

theorem encodePieces_length (ps : List Piece) : 2 * ps.length ≤ (encodePieces ps).length := by
  induction ps with
  | nil => simp
  | cons p ps ih => simp [encodePieces]; omega

/-- A sequence of register pieces evaluates to the concatenation with the first piece most significant. -/
theorem eval_pieces (env : Env) (d : List Byte) (hw : d.length < W64) (reloc : BitVec 64)
    (reg : Nat → BitVec 64) (p : Piece) (ps : List Piece) (rest : List Byte) (stack : List (BitVec 64)) (inReg off : Nat)
    (hp : p.reg < 32 ∧ p.bytes < 2 ^ 64 ∧ env.regs.getDwarf (p.reg : Int) = .ok (.u64 (reg p.reg)))
    (hps : ∀ p ∈ ps, p.reg < 32 ∧ p.bytes < 8 ∧ env.regs.getDwarf (p.reg : Int) = .ok (.u64 (reg p.reg)))
    (h : d.drop off = encodePieces (p :: ps) ++ rest) :
    ∃ s', eval env d reloc stack inReg off (off + (encodePieces (p :: ps)).length) =
      .ok (s', BitVec.ofNat 64 (composite reg (p :: ps).reverse)) ∧ s'.stack = stack := by
  have hl := len_of_drop' h
  have hl2 := encodePieces_length ps
  unfold eval
  obtain ⟨h1, h2, h3⟩ := hp
  simp only [encodePieces, List.cons_append, List.append_assoc, List.length_cons, List.length_append] at h hl ⊢
  generalize hE : off + ((encodeU p.bytes).length + (encodePieces ps).length + 1 + 1) = endOff
  obtain ⟨k, hk⟩ : ∃ k, d.length + 1 = (k + 2 * ps.length + 1) + 1 + 1 := ⟨d.length + 1 - 2 * ps.length - 3, by
    have := Pstack.Reader.encodeU_ne_nil p.bytes
    have : 0 < (encodeU p.bytes).length := List.length_pos_iff.2 this
    omega⟩
  rw [hk, regOp_step env d reloc _ _ off endOff p.reg _ _ h1 h3 h (by omega)]
  have hd1 := drop_cons h
  obtain ⟨w, hw1, hw2⟩ := pieceOp_first ⟨stack, true, p.reg, 0⟩ (reg p.reg) (BitVec.ofNat 64 p.bytes) rfl
  erw [pieceOp_step env d hw reloc _ _ _ _ endOff p.bytes _ h2 hd1 (by omega) hw1]
  have hd2 := drop_prefix (drop_cons hd1)
  obtain ⟨s', hs', hst⟩ := evalLoop_pieces env d hw reloc endOff reg ps rest k _ ⟨stack, true, p.reg, 1⟩ w (by simp) hps hd2 (by omega)
  refine ⟨s', ?_, hst⟩
  rw [hs', beFold_eq]
  have e : (BitVec.ofNat 64 p.bytes).toNat = p.bytes := by simp; omega
  rw [e] at hw2
  rw [hw2, List.reverse_cons, composite_append, List.map_reverse, List.sum_reverse]
end Pstack.Expr
