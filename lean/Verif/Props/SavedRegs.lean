import Verif.Props.Expr
import Verif.Props.Unwind
import Verif.Spec.RegValues
/-
C15: registers of any type that are saved in memory.
-/
namespace Pstack.Props
open Pstack.Dwarf Pstack.Arch Pstack.Spec Pstack.Expr Pstack.Unwind

theorem byte_or {w : Nat} (hw : 8 ≤ w) (x : Nat) (b : Byte) : BitVec.ofNat w x <<< 8 ||| b.setWidth w = BitVec.ofNat w (b.toNat + 256 * x) := by
  apply BitVec.eq_of_toNat_eq
  have hb := b.isLt
  have e256 : 2 ^ 8 ≤ 2 ^ w := Nat.pow_le_pow_right (by decide) hw
  have e1 : (b.setWidth w).toNat = b.toNat := by
    rw [BitVec.toNat_setWidth, Nat.mod_eq_of_lt (by omega)]
  obtain ⟨k, rfl⟩ : ∃ k, w = k + 8 := ⟨w - 8, by omega⟩
  have hdvd : 2 ^ (k + 8) = 256 * 2 ^ k := by rw [Nat.pow_add, Nat.mul_comm]
  have e2 : (BitVec.ofNat (k + 8) x <<< 8).toNat = 256 * (x % 2 ^ k) := by
    rw [BitVec.toNat_shiftLeft, BitVec.toNat_ofNat, Nat.shiftLeft_eq, show (2 : Nat) ^ 8 = 256 from rfl, Nat.mul_comm, Nat.mul_mod_mod, hdvd, Nat.mul_mod_mul_left]
  rw [BitVec.toNat_or, e1, e2, BitVec.toNat_ofNat]
  have e3 : 256 * (x % 2 ^ k) ||| b.toNat = 256 * (x % 2 ^ k) + b.toNat := by
    have := Nat.two_pow_add_eq_or_of_lt (i := 8) (b := b.toNat) (by omega) (x % 2 ^ k)
    exact this.symm
  rw [e3, hdvd]
  have e4 : (b.toNat + 256 * x) % (256 * 2 ^ k) = b.toNat + 256 * (x % 2 ^ k) := by
    have e5 : x = 2 ^ k * (x / 2 ^ k) + x % 2 ^ k := (Nat.div_add_mod x (2 ^ k)).symm
    have e6 : b.toNat + 256 * x = (b.toNat + 256 * (x % 2 ^ k)) + (256 * 2 ^ k) * (x / 2 ^ k) := by
      conv => lhs; rw [e5]
      rw [Nat.mul_add, Nat.mul_assoc]; omega
    rw [e6, Nat.add_mul_mod_self_left, Nat.mod_eq_of_lt]
    have : x % 2 ^ k < 2 ^ k := Nat.mod_lt _ (Nat.pow_pos (by decide))
    omega
  rw [e4]; omega

theorem bytes_value {w : Nat} (hw : 8 ≤ w) : ∀ bs : List Byte, bytesValue w bs = BitVec.ofNat w (leNat bs)
  | [] => rfl
  | b :: bs => by
    show bytesValue w bs <<< 8 ||| b.setWidth w = _
    rw [bytes_value hw bs, byte_or hw]
    rfl

theorem bytes_number {w : Nat} (hw : 8 ≤ w) (bs : List Byte) (hl : 8 * bs.length = w) : (bytesValue w bs).toNat = leNat bs := by
  rw [bytes_value hw, BitVec.toNat_ofNat, Nat.mod_eq_of_lt]
  have := leNat_lt bs
  rw [← hl, Nat.pow_mul]
  exact this

theorem exact_read {p : Proc} {a : BitVec 64} {bs : List Byte} {n : Nat} (hm : p.mem a.toNat n = .ok bs) (hl : bs.length = n) : readExact p a n = .ok bs := by
  unfold readExact
  rw [hm]
  simp only [Out.ofRes, Out.bind_ok]
  rw [if_neg (by omega)]

theorem typed_value {p : Proc} {reg : Int} {a : BitVec 64} {out : Regs} {old : RegVal} {bs : List Byte} (hreg : out.getDwarf reg = .ok old) (hm : p.mem a.toNat (regBytes old) = .ok bs)
    (hl : bs.length = regBytes old) : ∃ v, readTyped p reg a = .ok v ∧ kind v = kind old ∧ regNumber v = leNat bs := by
  unfold Regs.getDwarf at hreg
  unfold readTyped
  split at hreg <;> first | (cases hreg; done) | skip
  all_goals rename_i hs
  all_goals (simp only [Out.ok.injEq] at hreg; subst hreg; rw [hs]; simp only [regBytes] at hm hl)
  all_goals (simp only [exact_read hm hl, Out.bind_ok, Out.pure_eq])
  all_goals first
    | exact ⟨_, rfl, rfl, by simp only [regNumber]; rw [bytes_number (by decide) bs (by omega)]⟩
    | (refine ⟨_, rfl, rfl, ?_⟩
       simp only [regNumber]
       rw [word_eq, BitVec.toNat_ofNat, Nat.mod_eq_of_lt]
       have := leNat_lt bs
       rw [hl] at this
       exact this)

/-- C15. A register of any type that the rules say is saved at an offset from the CFA gets the value of as many bytes as the register has, the lowest first, and others are left alone. -/
theorem C15_saved (p : Proc) (d : List Byte) (reloc : BitVec 64) (f : Frame) (cfa : BitVec 64) (out : Regs) (reg : Int) (old : RegVal) (u : RegUnwind) (n : Int) (bs : List Byte)
    (hk : ¬NotKept reg) (hreg : out.getDwarf reg = .ok old) (hu : u.type = .offset) (hn : u.w0 = BitVec.ofInt 64 n)
    (hm : p.mem (cfa + BitVec.ofInt 64 n).toNat (regBytes old) = .ok bs) (hl : bs.length = regBytes old) :
    ∃ out' v, applyRule p d reloc f cfa out (reg, u) = .ok out' ∧ out'.getDwarf reg = .ok v ∧ kind v = kind old ∧ regNumber v = leNat bs ∧
      ∀ other, other ≠ reg → ¬MmXmm reg other → out'.getDwarf other = out.getDwarf other := by
  obtain ⟨v, h1, h2, h3⟩ := typed_value hreg hm hl
  obtain ⟨out', h4⟩ := (C19_set_typed out reg v old hreg).2 h2
  refine ⟨out', v, ?_, C19_set_get_partial out out' reg v hk h4, h2, h3, fun other => C19_set_others_partial out out' reg other v h4⟩
  unfold applyRule ruleValue
  simp only [hu, hn, h1, Out.bind_ok, Out.pure_eq]
  exact h4

/-- A stack on which `xmm6` (regNumber 23) has been saved 16 bytes below the CFA. -/
theorem C15_example_saved (p : Proc) (d : List Byte) (reloc : BitVec 64) (f : Frame) (out : Regs) (hp : ∀ a n, p.mem a n = .ok ((List.range n).map (fun i => BitVec.ofNat 8 (a + i)))) :
    ∃ out', applyRule p d reloc f 0x7010#64 out (23, { type := .offset, w0 := BitVec.ofInt 64 (-16), w1 := 0 }) = .ok out' ∧
      ∃ v, out'.getDwarf 23 = .ok v ∧ regNumber v = 0x0f0e0d0c0b0a09080706050403020100 := by
  obtain ⟨out', v, h1, h2, _, h3, _⟩ := C15_saved p d reloc f 0x7010#64 out 23 (.simd128 (out.xmm 6)) { type := .offset, w0 := BitVec.ofInt 64 (-16), w1 := 0 } (-16)
    ((List.range 16).map (fun i => BitVec.ofNat 8 (0x7000 + i))) (by unfold NotKept; omega) rfl rfl rfl (hp _ _) rfl
  exact ⟨out', h1, v, h2, h3.trans rfl⟩

end Pstack.Props
