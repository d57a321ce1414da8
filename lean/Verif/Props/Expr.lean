import Verif.Proof.Expr2
import Verif.Proof.Regs
/-
C19 (registers), C20, C21, C46, C47 (DWARF expressions).
-/
namespace Pstack.Props
open Pstack.Dwarf Pstack.Arch Pstack.Spec Pstack.Expr

/-! ## C19 -/

/-- Numbers of registers that exist on newer processors but are not kept: reads give a dummy byte, writes are dropped. -/
def NotKept (reg : Int) : Prop := (60 ≤ reg ∧ reg ≤ 61) ∨ (67 ≤ reg ∧ reg ≤ 154)

/-- `mm i` (number 41+i) and `xmm i` (number 17+i). -/
def MmXmm (a b : Int) : Prop := (41 ≤ a ∧ a ≤ 48 ∧ b = a - 24) ∨ (41 ≤ b ∧ b ≤ 48 ∧ a = b - 24)

/-- Which alternative of the value type a value is. -/
def kind : RegVal → Nat
  | .u16 _ => 0 | .u32 _ => 1 | .u64 _ => 2 | .i387 _ => 3 | .simd64 _ => 4 | .simd128 _ => 5 | .char _ => 6

/-- C19. A register that is kept reads back as what was last written to it. -/
theorem C19_set_get_partial (r r' : Regs) (reg : Int) (v : RegVal) (hk : ¬ NotKept reg) (h : r.setDwarf reg v = .ok r') :
    r'.getDwarf reg = .ok v := by
  have hu : slotOf reg ≠ some .unused := fun hh => hk ((slotOf_unused reg).1 hh)
  unfold Regs.setDwarf at h
  unfold Regs.getDwarf
  split at h <;> first | (cases h; done) | skip
  all_goals rename_i hs
  all_goals first | (exact absurd hs hu) | (simp only [Out.ok.injEq] at h; subst h; rw [hs] <;> (dsimp only; rw [upd_same])) |
    (simp only [Out.ok.injEq] at h; subst h; rw [hs])

/-- C19. A write succeeds exactly when the value has the register's type. -/
theorem C19_set_typed (r : Regs) (reg : Int) (v w : RegVal) (h : r.getDwarf reg = .ok w) :
    (∃ r', r.setDwarf reg v = .ok r') ↔ kind v = kind w := by
  unfold Regs.getDwarf at h
  unfold Regs.setDwarf
  split at h <;> first | (cases h; done) | skip
  all_goals rename_i hs
  all_goals (simp only [Out.ok.injEq] at h; subst h; rw [hs]; cases v <;> simp [kind])

/-- C19. A write changes no register but the one written, apart from `mm i`/`xmm i`, which share storage. -/
theorem C19_set_others_partial (r r' : Regs) (reg other : Int) (v : RegVal) (h : r.setDwarf reg v = .ok r')
    (hne : other ≠ reg) (hs : ¬ MmXmm reg other) : r'.getDwarf other = r.getDwarf other := by
  have hc := slotOf_cases other
  unfold Regs.setDwarf at h
  split at h <;> first | (cases h; done) | skip
  all_goals rename_i hslot
  all_goals (simp only [Out.ok.injEq] at h; subst h)
  case h_14 => rfl
  all_goals have hn := slotOf_num reg _ hslot (by simp)
  all_goals unfold Regs.getDwarf
  all_goals rcases hc with ⟨u, h1, h2⟩ | ⟨i, h1, h3, h2⟩ | ⟨i, h1, h3, h2⟩ | ⟨i, h1, h3, h2⟩ | ⟨h1, h2⟩ | ⟨h1, h2⟩ | ⟨h1, h2⟩ |
    ⟨h1, h2⟩ | ⟨h1, h2⟩ | ⟨h1, h2⟩ | ⟨h1, h2⟩ | ⟨h1, h2⟩ | ⟨h1, h2⟩ | ⟨h1, h2⟩
  all_goals rw [h1]
  all_goals dsimp only
  all_goals first
    | (rw [upd_ne]; intro he; subst he; first | (exact absurd (h2.trans hn.symm) hne) | (exact absurd (h2.symm.trans hn.symm) hne) |
        (exfalso; apply hs; simp only [MmXmm, numOf] at hn ⊢; omega))
    | (exfalso; apply hne; rw [h2, hn]; rfl)
    | skip
  have hb := slotOf_mmx_lt reg _ hslot
  rw [upd_ne]
  intro he
  subst he
  apply hs
  simp only [MmXmm, numOf] at hn ⊢
  omega

/-- The numbering of the System V ABI for x86-64 (figure 3.36): general registers and segment registers. -/
def abiNumbers : List (Int × UserReg) :=
  [(0, .rax), (1, .rdx), (2, .rcx), (3, .rbx), (4, .rsi), (5, .rdi), (6, .rbp), (7, .rsp), (8, .r8), (9, .r9), (10, .r10),
   (11, .r11), (12, .r12), (13, .r13), (14, .r14), (15, .r15), (16, .rip), (49, .eflags), (50, .es), (51, .cs), (52, .ss),
   (53, .ds), (54, .fs), (55, .gs), (58, .fs_base), (59, .gs_base)]

/-- C19. The numbers name the registers the ABI says they do. -/
theorem C19_numbering (r : Regs) : (∀ p ∈ abiNumbers, r.getDwarf p.1 = .ok (.u64 (r.user p.2))) ∧
    (∀ i : Nat, i < 16 → r.getDwarf (17 + i) = .ok (.simd128 (r.xmm i))) ∧
    (∀ i : Nat, i < 8 → r.getDwarf (33 + i) = .ok (.i387 (r.st i))) := by
  refine ⟨?_, ?_, ?_⟩
  · simp only [abiNumbers, List.forall_mem_cons, List.not_mem_nil, false_implies, implies_true, and_true]
    refine ⟨rfl, rfl, rfl, rfl, rfl, rfl, rfl, rfl, rfl, rfl, rfl, rfl, rfl, rfl, rfl, rfl, rfl, rfl, rfl, rfl, rfl, rfl, rfl, rfl,
      rfl, rfl⟩
  · intro i hi
    have h2 : slotOf (17 + i) = some (.xmm i) := by
      unfold slotOf
      rw [if_neg (by omega), if_pos (by omega)]
      congr; omega
    simp [Regs.getDwarf, h2]
  · intro i hi
    have h3 : slotOf (33 + i) = some (.st i) := by
      unfold slotOf
      rw [if_neg (by omega), if_neg (by omega), if_pos (by omega)]
      congr; omega
    simp [Regs.getDwarf, h3]

/-- C19. A number the architecture does not have raises an exception, on reading and on writing. -/
theorem C19_bad_number (r : Regs) (reg : Int) (v : RegVal)
    (h : reg < -5 ∨ 154 < reg ∨ reg = 56 ∨ reg = 57 ∨ reg = 62 ∨ reg = 63) :
    r.getDwarf reg = .stdexc ∧ r.setDwarf reg v = .stdexc := by
  have := (slotOf_none reg).2 h
  simp [Regs.getDwarf, Regs.setDwarf, this]

/-- C19, where it fails: the numbers from 67 (xmm16) up accept a write and forget it. -/
theorem C19_not_set_get_unkept (r : Regs) (reg : Int) (h : NotKept reg) (b : BitVec 8) :
    r.setDwarf reg (.char b) = .ok r ∧ r.getDwarf reg = .ok (.char 0) := by
  have := (slotOf_unused reg).2 h
  simp [Regs.getDwarf, Regs.setDwarf, this]

/-- C19, where it fails: writing `mm i` changes `xmm i` - whereas in hardware the MMX registers share the x87 stack
registers, which stay as they were. -/
theorem C19_mm_in_xmm (r r' : Regs) (i : Nat) (hi : i < 8) (v : BitVec 128) (h : r.setDwarf (41 + i) (.simd64 v) = .ok r') :
    r'.getDwarf (17 + i) = .ok (.simd128 v) ∧ r'.getDwarf (33 + i) = r.getDwarf (33 + i) := by
  have h1 : slotOf (41 + i) = some (.mmx i) := by
    unfold slotOf
    rw [if_neg (by omega), if_neg (by omega), if_neg (by omega), if_pos (by omega)]
    congr; omega
  have h2 : slotOf (17 + i) = some (.xmm i) := by
    unfold slotOf
    rw [if_neg (by omega), if_pos (by omega)]
    congr; omega
  have h3 : slotOf (33 + i) = some (.st i) := by
    unfold slotOf
    rw [if_neg (by omega), if_neg (by omega), if_pos (by omega)]
    congr; omega
  simp only [Regs.setDwarf, h1, Out.ok.injEq] at h
  subst h
  simp [Regs.getDwarf, h2, h3, upd]

-- non-vacuity: writing rip of any register file
example (r : Regs) : ∃ r', r.setDwarf 16 (.u64 0x401000#64) = .ok r' ∧ ¬ NotKept 16 := by
  refine ⟨_, rfl, by simp [NotKept]⟩

/-! ## C20 -/

/-- C20. Evaluating the code of any expression whose operators stay within signed 64-bit arithmetic gives its value, and
leaves the stack as it was. -/
theorem C20_expression_partial (env : Env) (d : List Byte) (hw : d.length < W64) (reloc : BitVec 64) (m : Machine)
    (hp : Provides env m reloc) (e : Spec.Expr) (hwf : e.WF) (hex : e.Exact m) (v : BitVec 64) (hv : e.value m = some v)
    (rest : List Byte) (stack : List (BitVec 64)) (inReg off : Nat) (h : d.drop off = e.encode ++ rest) :
    eval env d reloc stack inReg off (off + e.encode.length) = .ok (⟨stack, false, inReg, 0⟩, v) := by
  have hl := len_of_drop' h
  have hn := nops_le e
  unfold eval
  obtain ⟨k, hk⟩ : ∃ k, d.length + 1 = (k + 1) + nops e := ⟨d.length - nops e, by omega⟩
  rw [hk, evalLoop_expr env d hw reloc m hp _ e rest (k + 1) off _ v hwf hex h (Nat.le_refl _) hv]
  exact evalLoop_end ..

/-- C20. A register location gives the register's contents, and says which register it is. -/
theorem C20_register_location (env : Env) (d : List Byte) (reloc : BitVec 64) (n : Nat) (hn : n < 32) (v : BitVec 64)
    (hv : env.regs.getDwarf (n : Int) = .ok (.u64 v)) (rest : List Byte) (stack : List (BitVec 64)) (inReg off : Nat)
    (h : d.drop off = BitVec.ofNat 8 (0x50 + n) :: rest) :
    eval env d reloc stack inReg off (off + 1) = .ok (⟨stack, true, n, 0⟩, v) := by
  have hl := congrArg List.length h
  simp only [List.length_drop, List.length_cons] at hl
  unfold eval
  obtain ⟨k, hk⟩ : ∃ k, d.length + 1 = (k + 1) + 1 := ⟨d.length - 1, by omega⟩
  rw [hk, regOp_step env d reloc _ _ off (off + 1) n rest v hn hv h (by omega)]
  exact evalLoop_end ..

/-- C20, where it fails: nothing is left of `DW_OP_stack_value`. The result for "the value of `e`" is the same as for "the
memory at address `e`". -/
theorem C20_not_stack_value (env : Env) (d : List Byte) (hw : d.length < W64) (reloc : BitVec 64) (m : Machine)
    (hp : Provides env m reloc) (e : Spec.Expr) (hwf : e.WF) (hex : e.Exact m) (v : BitVec 64) (hv : e.value m = some v)
    (rest : List Byte) (stack : List (BitVec 64)) (inReg off : Nat) (h : d.drop off = e.encode ++ 0x9f#8 :: rest) :
    eval env d reloc stack inReg off (off + e.encode.length + 1) =
      eval env d reloc stack inReg off (off + e.encode.length) := by
  rw [C20_expression_partial env d hw reloc m hp e hwf hex v hv (0x9f#8 :: rest) stack inReg off h]
  have hl := len_of_drop' h
  have hn := nops_le e
  have h1 := drop_prefix h
  have hl1 := congrArg List.length h
  simp only [List.length_drop, List.length_append, List.length_cons] at hl1
  unfold eval
  obtain ⟨k, hk⟩ : ∃ k, d.length + 1 = (k + 1 + 1) + nops e := ⟨d.length - nops e - 1, by omega⟩
  rw [hk, evalLoop_expr env d hw reloc m hp _ e _ (k + 1 + 1) off _ v hwf hex h (by omega) hv]
  rw [loop_step env d reloc (k + 1) _ _ _ _ _ _ _ h1 (by omega) (by intro nested; simp [evalOp, unop, binop]; exact ⟨rfl, rfl⟩)]
  exact evalLoop_end ..

/-- C20, where it fails: an expression that leaves its stack empty, or an operator with too few operands, is not rejected:
the behaviour is undefined. -/
theorem C20_not_underflow_empty (env : Env) (d : List Byte) (reloc : BitVec 64) (inReg off : Nat) :
    eval env d reloc [] inReg off off = .ub := by
  unfold eval; rw [evalLoop, if_pos rfl]; rfl

theorem C20_not_underflow_operator (env : Env) (d : List Byte) (reloc : BitVec 64) (op : BinOp) (stack : List (BitVec 64))
    (hs : stack.length < 2) (inReg off endOff : Nat) (rest : List Byte) (h : d.drop off = op.code :: rest) (he : off ≠ endOff) :
    eval env d reloc stack inReg off endOff = .ub := by
  unfold eval
  rw [evalLoop, if_neg he, getu8_prefix d _ _ _ h]
  simp only [Out.ofRes, Out.bind_ok]
  obtain ⟨c1, c2, c3⟩ := code_bin op
  unfold evalOp
  rw [if_neg (by omega), if_neg (by omega), if_neg (by omega), if_neg (by rw [c1]; decide), if_pos c2]
  match stack, hs with
  | [], _ => rfl
  | [a], _ => rfl

/-- C20, where it fails: division and remainder by zero are not rejected. -/
theorem C20_not_division_by_zero (env : Env) (d : List Byte) (hw : d.length < W64) (reloc : BitVec 64) (m : Machine)
    (hp : Provides env m reloc) (op : BinOp) (hop : op = .div ∨ op = .mod) (ea eb : Spec.Expr) (a : BitVec 64) (rest : List Byte)
    (stack : List (BitVec 64)) (inReg off : Nat) (hwa : ea.WF) (hwb : eb.WF) (hxa : ea.Exact m) (hxb : eb.Exact m)
    (ha : ea.value m = some a) (hb : eb.value m = some 0) (h : d.drop off = (Spec.Expr.bin op ea eb).encode ++ rest) :
    eval env d reloc stack inReg off (off + (Spec.Expr.bin op ea eb).encode.length) = .ub := by
  rw [eval_bin env d hw reloc m hp op ea eb a 0 rest stack inReg off hwa hwb hxa hxb ha hb h]
  rcases hop with rfl | rfl <;> simp [BinOp.code, binop]

/-- C20, where it fails: shifts by 64 or more are not rejected. -/
theorem C20_not_oversized_shift (env : Env) (d : List Byte) (hw : d.length < W64) (reloc : BitVec 64) (m : Machine)
    (hp : Provides env m reloc) (op : BinOp) (hop : op = .shl ∨ op = .shr ∨ op = .shra) (ea eb : Spec.Expr) (a b : BitVec 64)
    (hb64 : 64 ≤ b.toNat) (rest : List Byte)
    (stack : List (BitVec 64)) (inReg off : Nat) (hwa : ea.WF) (hwb : eb.WF) (hxa : ea.Exact m) (hxb : eb.Exact m)
    (ha : ea.value m = some a) (hb : eb.value m = some b) (h : d.drop off = (Spec.Expr.bin op ea eb).encode ++ rest) :
    eval env d reloc stack inReg off (off + (Spec.Expr.bin op ea eb).encode.length) = .ub := by
  rw [eval_bin env d hw reloc m hp op ea eb a b rest stack inReg off hwa hwb hxa hxb ha hb h]
  rcases hop with rfl | rfl | rfl <;> simp [BinOp.code, binop, hb64]

/-- C20, where it fails: a product that does not fit 63 bits and a sign (two unsigned numbers, say) is undefined rather
than reduced modulo 2^64. -/
theorem C20_not_wrapping_mul (env : Env) (d : List Byte) (hw : d.length < W64) (reloc : BitVec 64) (m : Machine)
    (hp : Provides env m reloc) (ea eb : Spec.Expr) (a b : BitVec 64)
    (hov : ¬ (-2 ^ 63 ≤ a.toInt * b.toInt ∧ a.toInt * b.toInt < 2 ^ 63)) (rest : List Byte)
    (stack : List (BitVec 64)) (inReg off : Nat) (hwa : ea.WF) (hwb : eb.WF) (hxa : ea.Exact m) (hxb : eb.Exact m)
    (ha : ea.value m = some a) (hb : eb.value m = some b) (h : d.drop off = (Spec.Expr.bin .mul ea eb).encode ++ rest) :
    eval env d reloc stack inReg off (off + (Spec.Expr.bin .mul ea eb).encode.length) = .ub ∧
    (Spec.Expr.bin .mul ea eb).value m = some (a * b) := by
  rw [eval_bin env d hw reloc m hp .mul ea eb a b rest stack inReg off hwa hwb hxa hxb ha hb h]
  refine ⟨?_, by simp [Spec.Expr.value, ha, hb, BinOp.den]⟩
  have : signed (b.toInt * a.toInt) = .ub := by unfold signed; rw [if_neg (by rw [Int.mul_comm]; exact hov)]
  simp [BinOp.code, binop, this]

/-- C20, where it fails: the remainder of a dividend with the top bit set is taken as signed, and so is not the value DWARF
defines (the unsigned remainder) unless the two happen to agree. -/
theorem C20_not_unsigned_mod (env : Env) (d : List Byte) (hw : d.length < W64) (reloc : BitVec 64) (m : Machine)
    (hp : Provides env m reloc) (ea eb : Spec.Expr) (a b : BitVec 64) (hneg : a.toInt < 0) (hpos : 0 < b.toInt)
    (hdiff : a.toInt.tmod b.toInt ≠ 0) (rest : List Byte)
    (stack : List (BitVec 64)) (inReg off : Nat) (hwa : ea.WF) (hwb : eb.WF) (hxa : ea.Exact m) (hxb : eb.Exact m)
    (ha : ea.value m = some a) (hb : eb.value m = some b) (h : d.drop off = (Spec.Expr.bin .mod ea eb).encode ++ rest) :
    ∃ v w, eval env d reloc stack inReg off (off + (Spec.Expr.bin .mod ea eb).encode.length) =
        .ok (⟨stack, false, inReg, 0⟩, v) ∧ v.toInt < 0 ∧
      (Spec.Expr.bin .mod ea eb).value m = some w ∧ w.toInt = a.toNat % b.toNat ∧ v ≠ w := by
  have hb0 : b ≠ 0 := by intro hh; subst hh; simp at hpos
  have hbi := toInt_bounds b
  have hai := toInt_bounds a
  have hbn : b.toInt = b.toNat := toInt_eq_toNat b (by omega)
  have hm1 := Int.lt_tmod_of_pos a.toInt hpos
  have hm2 : a.toInt.tmod b.toInt ≤ 0 := by
    have := Int.tmod_nonneg b.toInt (a := - a.toInt) (by omega)
    rw [Int.neg_tmod] at this; omega
  have hml : a.toNat % b.toNat < b.toNat := Nat.mod_lt _ (by omega)
  have e1 : (BitVec.ofInt 64 (a.toInt.tmod b.toInt)).toInt = a.toInt.tmod b.toInt := by
    rw [BitVec.toInt_ofInt, Int.bmod_eq_of_le (by omega) (by omega)]
  have e2 : (BitVec.ofNat 64 (a.toNat % b.toNat)).toInt = a.toNat % b.toNat := by
    rw [BitVec.toInt_ofNat', Int.bmod_eq_of_le (by omega) (by omega)]; omega
  refine ⟨BitVec.ofInt 64 (a.toInt.tmod b.toInt), BitVec.ofNat 64 (a.toNat % b.toNat), ?_, by omega,
    by simp only [Spec.Expr.value, ha, hb, BinOp.den, Option.bind_eq_bind, Option.bind_some]; rw [if_neg hb0], e2, ?_⟩
  · rw [eval_bin env d hw reloc m hp .mod ea eb a b rest stack inReg off hwa hwb hxa hxb ha hb h]
    have : signed (a.toInt.tmod b.toInt) = .ok (BitVec.ofInt 64 (a.toInt.tmod b.toInt)) := by
      unfold signed; rw [if_pos (by omega)]
    have hb1 : ¬ (b = 0#64) := hb0
    simp only [BinOp.code, BitVec.reduceToNat, binop, Option.getD_some, if_neg hb1]
    rw [if_neg (by omega), this]
    rfl
  · intro hh
    have := congrArg BitVec.toInt hh
    omega

/-- C20, where it fails: `DW_OP_entry_value(e)` does not give the value `e` had on entry to the function, but its value now;
and as the block is not skipped, it is run twice, leaving an extra word on the stack. -/
theorem C20_not_entry_value (env : Env) (d : List Byte) (hw : d.length < W64) (reloc : BitVec 64) (m : Machine)
    (hp : Provides env m reloc) (e : Spec.Expr) (hwf : e.WF) (hex : e.Exact m) (v : BitVec 64) (hv : e.value m = some v)
    (rest : List Byte) (stack : List (BitVec 64)) (inReg off : Nat)
    (h : d.drop off = 0xa3#8 :: (encodeU e.encode.length ++ (e.encode ++ rest))) :
    eval env d reloc stack inReg off (off + 1 + (encodeU e.encode.length).length + e.encode.length) =
      .ok (⟨v :: stack, false, inReg, 0⟩, v) := by
  have hl := congrArg List.length h
  simp only [List.length_drop, List.length_append, List.length_cons] at hl
  have hn := nops_le e
  have h1 := drop_cons h
  have h2 := drop_prefix h1
  unfold eval
  obtain ⟨k, hk⟩ : ∃ k, d.length + 1 = (k + 1 + nops e) + 1 := ⟨d.length - nops e - 1, by omega⟩
  rw [hk, evalLoop, if_neg (by omega), getu8_prefix d _ _ _ h]
  simp only [Out.ofRes, Out.bind_ok, BitVec.reduceToNat]
  simp only [evalOp, unop, binop]
  simp only [Nat.reduceLeDiff, and_false, if_false, Option.isSome_none, Bool.false_eq_true]
  rw [Ev.bind_ok (rd_ok (ulebN d _ e.encode.length (by simp only [W64] at hw; omega) (off + 1) h1 hw))]
  rw [Ev.bind_ok (rd_ok (p := getOffset) rfl)]
  have e1 : (off + 1 + (encodeU e.encode.length).length + (BitVec.ofNat 64 e.encode.length).toNat) % W64 =
      off + 1 + (encodeU e.encode.length).length + e.encode.length := by
    have : (BitVec.ofNat 64 e.encode.length).toNat = e.encode.length := by
      simp only [W64] at hw; simp; omega
    rw [this, Nat.mod_eq_of_lt (by omega)]
  rw [e1]
  rw [evalLoop_expr env d hw reloc m hp _ e rest (k + 1) _ _ v hwf hex h2 (Nat.le_refl _) hv, evalLoop_end]
  simp only [Out.bind_ok]
  simp only [Out.pure_eq]
  rw [Ev.bind_ok (run_ok rfl)]
  simp only [Ev.pure_apply, Out.bind_ok]
  rw [evalLoop_expr env d hw reloc m hp _ e rest (k + 1) _ _ v hwf hex h2 (Nat.le_refl _) hv, evalLoop_end]
  rfl

/-! ## C21 -/

/-- The ordering operators. -/
def Ordering' (op : BinOp) : Prop := op = .ge ∨ op = .gt ∨ op = .le ∨ op = .lt

/-- C21. For operands of the same sign the ordering operators give the signed comparison. -/
theorem C21_same_sign_partial (env : Env) (d : List Byte) (hw : d.length < W64) (reloc : BitVec 64) (m : Machine)
    (hp : Provides env m reloc) (op : BinOp) (hop : Ordering' op) (ea eb : Spec.Expr) (a b : BitVec 64)
    (hsame : 0 ≤ a.toInt ↔ 0 ≤ b.toInt) (rest : List Byte)
    (stack : List (BitVec 64)) (inReg off : Nat) (hwa : ea.WF) (hwb : eb.WF) (hxa : ea.Exact m) (hxb : eb.Exact m)
    (ha : ea.value m = some a) (hb : eb.value m = some b) (h : d.drop off = (Spec.Expr.bin op ea eb).encode ++ rest) :
    ∃ v, op.den a b = some v ∧
      eval env d reloc stack inReg off (off + (Spec.Expr.bin op ea eb).encode.length) = .ok (⟨stack, false, inReg, 0⟩, v) := by
  obtain ⟨v, hv⟩ : ∃ v, op.den a b = some v := by
    rcases hop with rfl | rfl | rfl | rfl <;> exact ⟨_, rfl⟩
  refine ⟨v, hv, ?_⟩
  have hx : op.Exact a b := by
    rcases hop with rfl | rfl | rfl | rfl <;> exact hsame
  rw [eval_bin env d hw reloc m hp op ea eb a b rest stack inReg off hwa hwb hxa hxb ha hb h, binop_den op a b v hv hx]
  rfl

/-- C21, where it fails: for operands of different signs every ordering operator gives the opposite of the signed
comparison. -/
theorem C21_not_different_sign (env : Env) (d : List Byte) (hw : d.length < W64) (reloc : BitVec 64) (m : Machine)
    (hp : Provides env m reloc) (op : BinOp) (hop : Ordering' op) (ea eb : Spec.Expr) (a b : BitVec 64)
    (hdiff : ¬ (0 ≤ a.toInt ↔ 0 ≤ b.toInt)) (rest : List Byte)
    (stack : List (BitVec 64)) (inReg off : Nat) (hwa : ea.WF) (hwb : eb.WF) (hxa : ea.Exact m) (hxb : eb.Exact m)
    (ha : ea.value m = some a) (hb : eb.value m = some b) (h : d.drop off = (Spec.Expr.bin op ea eb).encode ++ rest) :
    ∃ t : Bool, op.den a b = some (truth t) ∧
      eval env d reloc stack inReg off (off + (Spec.Expr.bin op ea eb).encode.length) =
        .ok (⟨stack, false, inReg, 0⟩, truth (!t)) := by
  rw [eval_bin env d hw reloc m hp op ea eb a b rest stack inReg off hwa hwb hxa hxb ha hb h]
  have ea := BitVec.toInt_eq_toNat_cond a
  have eb := BitVec.toInt_eq_toNat_cond b
  have la := a.isLt
  have lb := b.isLt
  rcases hop with rfl | rfl | rfl | rfl
  all_goals refine ⟨_, rfl, ?_⟩
  all_goals simp only [BinOp.code, BitVec.reduceToNat, binop, Option.getD_some, Out.bind_ok, truth]
  all_goals congr 2
  all_goals (split at ea <;> split at eb)
  all_goals first | (exfalso; apply hdiff; omega) | skip
  · rw [if_neg (by omega), if_neg]; simp; omega
  · rw [if_pos (by omega), if_pos]; simp; omega
  · rw [if_neg (by omega), if_neg]; simp; omega
  · rw [if_pos (by omega), if_pos]; simp; omega
  · rw [if_pos (by omega), if_pos]; simp; omega
  · rw [if_neg (by omega), if_neg]; simp; omega
  · rw [if_pos (by omega), if_pos]; simp; omega
  · rw [if_neg (by omega), if_neg]; simp; omega

/-! ## C46 -/

/-- C46. A location made of one register piece gives the low bytes of that register. -/
theorem C46_one_piece_partial (env : Env) (d : List Byte) (hw : d.length < W64) (reloc : BitVec 64)
    (reg : Nat → BitVec 64) (p : Piece) (rest : List Byte) (stack : List (BitVec 64)) (inReg off : Nat)
    (hp : p.reg < 32 ∧ p.bytes < 2 ^ 64 ∧ env.regs.getDwarf (p.reg : Int) = .ok (.u64 (reg p.reg)))
    (h : d.drop off = encodePieces [p] ++ rest) :
    ∃ s', eval env d reloc stack inReg off (off + (encodePieces [p]).length) =
      .ok (s', BitVec.ofNat 64 (composite reg [p])) ∧ s'.stack = stack :=
  eval_pieces env d hw reloc reg p [] rest stack inReg off hp (by simp) h

/-- C46, where it fails: with several pieces the order is reversed - the first piece ends up most significant. -/
theorem C46_not_little_endian (env : Env) (d : List Byte) (hw : d.length < W64) (reloc : BitVec 64)
    (reg : Nat → BitVec 64) (p : Piece) (ps : List Piece) (rest : List Byte) (stack : List (BitVec 64)) (inReg off : Nat)
    (hp : p.reg < 32 ∧ p.bytes < 2 ^ 64 ∧ env.regs.getDwarf (p.reg : Int) = .ok (.u64 (reg p.reg)))
    (hps : ∀ p ∈ ps, p.reg < 32 ∧ p.bytes < 8 ∧ env.regs.getDwarf (p.reg : Int) = .ok (.u64 (reg p.reg)))
    (h : d.drop off = encodePieces (p :: ps) ++ rest) :
    ∃ s', eval env d reloc stack inReg off (off + (encodePieces (p :: ps)).length) =
      .ok (s', BitVec.ofNat 64 (composite reg (p :: ps).reverse)) ∧ s'.stack = stack :=
  eval_pieces env d hw reloc reg p ps rest stack inReg off hp hps h

-- the two orders differ: eax:edx pairs, say
example : composite (fun r => if r = 0 then 1 else 2) [⟨0, 4⟩, ⟨1, 4⟩] = 0x200000001 ∧
    composite (fun r => if r = 0 then 1 else 2) ([⟨0, 4⟩, ⟨1, 4⟩] : List Piece).reverse = 0x100000002 := by decide

/-! ## C47 -/

/-- C47. Whatever bytes it is given, an evaluation takes no more operations (and no deeper nesting of entry values) than
there are bytes from its start to the end of the section: more allowance changes nothing. -/
theorem C47_terminates (env : Env) (d : List Byte) (hw : d.length < W64) (reloc : BitVec 64) (stack : List (BitVec 64))
    (inReg off endOff allowance : Nat) (h : d.length - off < allowance) :
    evalLoop env d reloc allowance ⟨stack, false, inReg, 0⟩ off endOff = eval env d reloc stack inReg off endOff :=
  evalLoop_fuel env d hw reloc _ _ _ _ _ _ rfl h (by omega)

/-! ## Non-vacuity -/

/-- Registers with rbp = 0x7ffe0010, all others zero. -/
def exRegs : Regs :=
  { user := fun u => if u = .rbp then 0x7ffe0010#64 else 0, st := fun _ => 0, xmm := fun _ => 0, mxcsr := 0, mxcrMask := 0,
    cwd := 0, swd := 0, ftw := 0, fop := 0, fpRip := 0, fpRdp := 0 }

/-- Memory in which every word holds 5. -/
def exEnv : Env :=
  { mem := fun _ _ => .ok (leBytes 8 5), regs := exRegs, cfa := 0x7ffe0020#64, frameBase := .ok 0x7ffe0020#64, paramRef := fun _ => .exc }

def exMachine : Machine :=
  { reg := fun r => if r = 6 then some 0x7ffe0010#64 else none, word := fun _ => some 5, cfa := 0x7ffe0020#64,
    frameBase := some 0x7ffe0020#64, reloc := 0 }

theorem exProvides : Provides exEnv exMachine 0 where
  reg := by
    intro r v h
    simp only [exMachine] at h
    split at h
    · rename_i hr; subst hr; simp only [Option.some.injEq] at h; subst h; rfl
    · cases h
  word := by intro a v h; simp only [exMachine, Option.some.injEq] at h; subst h; rfl
  cfa := rfl
  frameBase := by intro v h; simp only [exMachine, Option.some.injEq] at h; subst h; rfl
  reloc := rfl

-- *(rbp - 8) * 3 < 100, as code at offset 2 of a section
example : eval exEnv ([1, 2] ++ (Spec.Expr.bin .lt (.bin .mul (.deref (.breg 6 (-8))) (.lit 3)) (.constu 100)).encode ++ [7]) 0
    [9] 3 2 10 = .ok (⟨[9], false, 3, 0⟩, 1) := by
  have := C20_expression_partial exEnv ([1, 2] ++ (Spec.Expr.bin .lt (.bin .mul (.deref (.breg 6 (-8))) (.lit 3)) (.constu 100)).encode ++ [7])
    (by decide +kernel) 0 exMachine exProvides (.bin .lt (.bin .mul (.deref (.breg 6 (-8))) (.lit 3)) (.constu 100))
    (by simp only [Spec.Expr.WF]; decide)
    (by
      refine ⟨⟨trivial, trivial, ?_⟩, trivial, ?_⟩
      · intro x y hx hy
        have h1 : some (5 : BitVec 64) = some x := hx
        have h2 : some (3 : BitVec 64) = some y := hy
        simp only [Option.some.injEq] at h1 h2; subst h1; subst h2
        simp only [BinOp.Exact]; decide
      · intro x y hx hy
        have h1 : some (15 : BitVec 64) = some x := hx
        have h2 : some (100 : BitVec 64) = some y := hy
        simp only [Option.some.injEq] at h1 h2; subst h1; subst h2
        simp only [BinOp.Exact]; decide)
    1 (by decide +kernel) [7] [9] 3 2 (by decide +kernel)
  rw [show (Spec.Expr.bin .lt (.bin .mul (.deref (.breg 6 (-8))) (.lit 3)) (.constu 100)).encode.length = 8 by decide +kernel] at this
  exact this

end Pstack.Props
