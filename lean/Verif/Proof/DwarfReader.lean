import Verif.Model.DwarfReader
import Verif.Spec.Dwarf
import Verif.Proof.Leb
namespace Pstack.Dwarf
open Pstack.Reader Pstack.Spec

@[simp] theorem Parse.pure_apply {α : Type} (a : α) (off : Nat) : (pure a : Parse α) off = .ok (a, off) := rfl

theorem Parse.bind_apply {α β : Type} (p : Parse α) (f : α → Parse β) (off : Nat) :
    (p >>= f) off = (p off) >>= fun x => f x.1 x.2 := rfl

theorem Parse.bind_ok {α β : Type} {p : Parse α} {f : α → Parse β} {off off' : Nat} {a : α}
    (h : p off = .ok (a, off')) : (p >>= f) off = f a off' := by
  rw [Parse.bind_apply, h]; rfl

theorem Parse.bind_exc {α β : Type} {p : Parse α} {f : α → Parse β} {off : Nat}
    (h : p off = .exc) : (p >>= f) off = .exc := by
  rw [Parse.bind_apply, h]; rfl

theorem getBytes_ok (d : List Byte) (n off : Nat) (h : off + n ≤ d.length) :
    getBytes d n off = .ok ((d.drop off).take n, off + n) := by
  unfold getBytes
  by_cases h0 : n = 0
  · subst h0; simp
  · rw [if_neg h0, if_pos h]

theorem getBytes_exc (d : List Byte) (n off : Nat) (h0 : 0 < n) (h : d.length < off + n) :
    getBytes d n off = .exc := by
  unfold getBytes
  rw [if_neg (by omega), if_neg (by omega)]

/-- Reading bytes known from the contents. -/
theorem getBytes_prefix (d bs rest : List Byte) (off : Nat) (h : d.drop off = bs ++ rest) :
    getBytes d bs.length off = .ok (bs, off + bs.length) := by
  have hlen : off + bs.length ≤ d.length ∨ bs = [] := by
    have := congrArg List.length h
    simp at this
    cases bs with
    | nil => right; rfl
    | cons b bs => left; simp at this ⊢; omega
  rcases hlen with hlen | rfl
  · rw [getBytes_ok d _ off hlen, h]; simp
  · simp [getBytes]

theorem drop_prefix {d bs rest : List Byte} {off : Nat} (h : d.drop off = bs ++ rest) :
    d.drop (off + bs.length) = rest := by
  rw [← List.drop_drop, h]; simp

theorem getu8_prefix (d rest : List Byte) (b : Byte) (off : Nat) (h : d.drop off = b :: rest) :
    getu8 d off = .ok (b, off + 1) := by
  unfold getu8
  have h1 : getBytes d 1 off = .ok ([b], off + 1) := getBytes_prefix d [b] rest off h
  rw [Parse.bind_ok h1]
  rfl

theorem getu8_exc (d : List Byte) (off : Nat) (h : d.length ≤ off) : getu8 d off = .exc := by
  unfold getu8
  rw [Parse.bind_exc (getBytes_exc d 1 off (by decide) (by omega))]

theorem acc_step (rc : BitVec 64) (b : Byte) :
    rc <<< 8 ||| b.setWidth 64 = BitVec.ofNat 64 (rc.toNat * 256 + b.toNat) := by
  apply BitVec.eq_of_toNat_eq
  have h := or_shift_toNat (b.setWidth 64) rc.toNat 8 (by simp; omega) (by decide) rc.isLt
  rw [BitVec.or_comm, show rc = BitVec.ofNat 64 rc.toNat by simp, h]
  simp; omega

theorem leNat_append (xs ys : List Byte) : leNat (xs ++ ys) = leNat xs + 256 ^ xs.length * leNat ys := by
  induction xs with
  | nil => simp [leNat]
  | cons x xs ih =>
    simp only [List.cons_append, leNat, ih, List.length_cons, Nat.pow_succ]
    rw [Nat.mul_add, Nat.add_assoc, Nat.mul_comm (256 ^ xs.length) 256, Nat.mul_assoc]

theorem leNat_lt (bs : List Byte) : leNat bs < 256 ^ bs.length := by
  induction bs with
  | nil => simp [leNat]
  | cons b bs ih =>
    simp only [leNat, List.length_cons, Nat.pow_succ]
    have := b.isLt
    omega

theorem accumulate_spec (bs : List Byte) : ∀ rc : BitVec 64,
    accumulate rc bs.reverse = BitVec.ofNat 64 (rc.toNat * 256 ^ bs.length + leNat bs) := by
  induction bs with
  | nil => intro rc; simp [accumulate, leNat]
  | cons b bs ih =>
    intro rc
    unfold accumulate at ih ⊢
    rw [List.reverse_cons, List.foldl_append, ih]
    simp only [List.foldl_cons, List.foldl_nil, acc_step, leNat, List.length_cons]
    apply BitVec.eq_of_toNat_eq
    simp only [BitVec.toNat_ofNat]
    rw [Nat.add_mod, Nat.mul_mod, Nat.mod_mod, ← Nat.mul_mod, ← Nat.add_mod]
    congr 1
    rw [Nat.add_mul, Nat.pow_succ 256, ← Nat.mul_assoc]; omega

theorem getuint_prefix (d bs rest : List Byte) (off : Nat) (h : d.drop off = bs ++ rest) (hl : bs.length ≤ 16) :
    getuint d bs.length off = .ok (BitVec.ofNat 64 (leNat bs), off + bs.length) := by
  unfold getuint
  rw [if_neg (by omega), Parse.bind_ok (getBytes_prefix d bs rest off h), accumulate_spec]
  simp

theorem getLastD_top (bs : List Byte) (h : bs ≠ []) :
    (bs.getLastD 0#8 &&& 0x80#8 ≠ 0#8) ↔ ¬ leNat bs < 2 ^ (8 * bs.length - 1) := by
  induction bs with
  | nil => exact absurd rfl h
  | cons b bs ih =>
    by_cases hb : bs = []
    · subst hb
      simp only [List.getLastD_cons, List.getLastD_nil, leNat, List.length_singleton]
      rw [ne_eq, byte_top]
      simp
    · have e : (b :: bs).getLastD 0#8 = bs.getLastD 0#8 := by
        cases bs with
        | nil => exact absurd rfl hb
        | cons c cs => simp [List.getLastD_cons]
      rw [e, ih hb]
      have hpos : 0 < bs.length := List.length_pos_iff.2 hb
      simp only [leNat, List.length_cons]
      have e2 : (2 : Nat) ^ (8 * (bs.length + 1) - 1) = 256 * 2 ^ (8 * bs.length - 1) := by
        rw [show 8 * (bs.length + 1) - 1 = 8 + (8 * bs.length - 1) by omega, Nat.pow_add]
      rw [e2]
      have := b.isLt
      omega

theorem getint_prefix (d bs rest : List Byte) (off : Nat) (h : d.drop off = bs ++ rest) (hl : bs.length ≤ 8)
    (h0 : bs ≠ []) :
    getint d bs.length off = .ok (BitVec.ofInt 64 (leInt bs), off + bs.length) := by
  have hpos : 0 < bs.length := List.length_pos_iff.2 h0
  unfold getint
  rw [if_neg (by omega), Parse.bind_ok (getBytes_prefix d bs rest off h)]
  simp only [Parse.pure_apply, accumulate_spec]
  congr 2
  unfold leInt
  have h256 : (256 : Nat) ^ bs.length = 2 ^ (8 * bs.length) := by
    rw [Nat.pow_mul]
  have hlt := leNat_lt bs
  have hle : (2 : Nat) ^ (8 * bs.length) ≤ 2 ^ 64 := Nat.pow_le_pow_right (by decide) (by omega)
  by_cases ht : leNat bs < 2 ^ (8 * bs.length - 1)
  · rw [if_neg (fun hh => (getLastD_top bs h0).1 hh ht), if_pos ht]
    apply BitVec.eq_of_toNat_eq
    simp
  · rw [if_pos ((getLastD_top bs h0).2 ht), if_neg ht]
    apply BitVec.eq_of_toNat_eq
    rw [h256] at hlt ⊢
    simp only [BitVec.toNat_ofNat, BitVec.toNat_ofInt, BitVec.toNat_allOnes]
    apply Int.ofNat_inj.1
    rw [Int.toNat_of_nonneg (Int.emod_nonneg _ (by decide))]
    have hc : ((2 : Int) ^ (8 * bs.length)) = ((2 ^ (8 * bs.length) : Nat) : Int) := by simp
    rw [hc]
    have hp := Nat.two_pow_pos (8 * bs.length)
    generalize (2 : Nat) ^ (8 * bs.length) = P at *
    have e : (2 ^ 64 - 1) * P + leNat bs = (2 ^ 64 * (P - 1)) + (2 ^ 64 - P + leNat bs) := by
      have : 2 ^ 64 * (P - 1) = 2 ^ 64 * P - 2 ^ 64 := by omega
      omega
    rw [e, Nat.mul_add_mod]
    rw [Nat.mod_eq_of_lt (by omega)]
    have : ((leNat bs : Int) - P) % ((2 ^ 64 : Nat) : Int) = leNat bs - P + (2 ^ 64 : Nat) := by omega
    rw [this]; omega

theorem leBytes_length (n v : Nat) : (leBytes n v).length = n := by
  induction n generalizing v with
  | zero => rfl
  | succ n ih => simp [leBytes, ih]

theorem leNat_leBytes (n v : Nat) : leNat (leBytes n v) = v % 256 ^ n := by
  induction n generalizing v with
  | zero => simp [leBytes, leNat, Nat.mod_one]
  | succ n ih =>
    simp only [leBytes, leNat, ih, BitVec.toNat_ofNat]
    rw [Nat.pow_succ 256, Nat.mul_comm (256 ^ n) 256, Nat.mod_mul]
    omega

theorem leBytes_leNat (bs : List Byte) : leBytes bs.length (leNat bs) = bs := by
  induction bs with
  | nil => rfl
  | cons b bs ih =>
    simp only [leNat, List.length_cons, leBytes]
    have := b.isLt
    rw [show (b.toNat + 256 * leNat bs) % 256 = b.toNat by omega,
        show (b.toNat + 256 * leNat bs) / 256 = leNat bs by omega, ih]
    simp

theorem or2_toNat {w : Nat} (x : BitVec w) (y : Byte) (s : Nat) (hx : x.toNat < 2 ^ s) (hs : s + 8 ≤ w) :
    (x ||| y.setWidth w <<< s).toNat = x.toNat + y.toNat * 2 ^ s := by
  rw [BitVec.toNat_or, BitVec.toNat_shiftLeft, BitVec.toNat_setWidth]
  have h8 : (2:Nat)^8 ≤ 2 ^ w := Nat.pow_le_pow_right (by decide) (by omega)
  have hy := y.isLt
  rw [Nat.mod_eq_of_lt (by omega : y.toNat < 2 ^ w), Nat.shiftLeft_eq]
  have hlt : y.toNat * 2 ^ s < 2 ^ w := by
    calc y.toNat * 2 ^ s < 2 ^ 8 * 2 ^ s := Nat.mul_lt_mul_of_pos_right hy (Nat.two_pow_pos s)
      _ = 2 ^ (8 + s) := by rw [Nat.pow_add]
      _ ≤ 2 ^ w := Nat.pow_le_pow_right (by decide) (by omega)
  rw [Nat.mod_eq_of_lt hlt, Nat.or_comm, Nat.mul_comm, ← Nat.two_pow_add_eq_or_of_lt hx]
  omega

theorem getu16_prefix (d rest : List Byte) (v : BitVec 16) (off : Nat) (h : d.drop off = leBytes 2 v.toNat ++ rest) :
    getu16 d off = .ok (v, off + 2) := by
  unfold getu16
  have := getBytes_prefix d _ rest off h
  rw [leBytes_length] at this
  rw [Parse.bind_ok this]
  simp only [leBytes, Parse.pure_apply]
  congr 2
  apply BitVec.eq_of_toNat_eq
  rw [or2_toNat _ _ 8 (by simp; omega) (by decide)]
  have := v.isLt
  simp; omega

theorem getu32_prefix (d rest : List Byte) (v : BitVec 32) (off : Nat) (h : d.drop off = leBytes 4 v.toNat ++ rest) :
    getu32 d off = .ok (v, off + 4) := by
  unfold getu32
  have := getBytes_prefix d _ rest off h
  rw [leBytes_length] at this
  rw [Parse.bind_ok this]
  simp only [leBytes, Parse.pure_apply]
  congr 2
  apply BitVec.eq_of_toNat_eq
  have hv := v.isLt
  have e0 : ((BitVec.ofNat 8 (v.toNat % 256)).setWidth 32).toNat = v.toNat % 256 := by simp; omega
  have e1 : ((BitVec.ofNat 8 (v.toNat % 256)).setWidth 32 ||| (BitVec.ofNat 8 (v.toNat / 256 % 256)).setWidth 32 <<< 8).toNat
      = v.toNat % 65536 := by
    rw [or2_toNat _ _ 8 (by rw [e0]; omega) (by decide), e0]; simp; omega
  have e2 : ((BitVec.ofNat 8 (v.toNat % 256)).setWidth 32 ||| (BitVec.ofNat 8 (v.toNat / 256 % 256)).setWidth 32 <<< 8 |||
      (BitVec.ofNat 8 (v.toNat / 256 / 256 % 256)).setWidth 32 <<< 16).toNat = v.toNat % 16777216 := by
    rw [or2_toNat _ _ 16 (by rw [e1]; omega) (by decide), e1]; simp; omega
  rw [or2_toNat _ _ 24 (by rw [e2]; omega) (by decide), e2]
  simp; omega

theorem getu32_exc (d : List Byte) (off : Nat) (h : d.length < off + 4) : getu32 d off = .exc := by
  unfold getu32
  rw [Parse.bind_exc (getBytes_exc d 4 off (by decide) h)]

theorem getuleb_prefix (d rest : List Byte) (v : BitVec 64) (off : Nat)
    (h : d.drop off = encodeU v.toNat ++ rest) (hw : d.length < W64) :
    getuleb128 d off = .ok (v, off + (encodeU v.toNat).length) := by
  unfold getuleb128
  have hlen : (encodeU v.toNat).length ≤ 10 := encodeU_length 10 _ (Nat.lt_of_lt_of_le v.isLt (by decide)) (by decide)
  have h1 := leb_unsigned .exc (encodeU v.toNat) 0 0#64 rest (encodeU_terminated _) (by omega) (by decide)
  rw [encodeU_value] at h1
  simp only [BitVec.toNat_ofNat, Nat.zero_mod, Nat.zero_add, Nat.mul_zero, Nat.pow_zero, Nat.mul_one, BitVec.ofNat_toNat,
    BitVec.setWidth_eq] at h1
  rw [h]
  unfold readULEB128
  rw [h1]
  have hl := congrArg List.length h
  have hne := encodeU_ne_nil v.toNat
  have : 0 < (encodeU v.toNat).length := List.length_pos_iff.2 hne
  simp at hl
  simp only
  rw [Nat.mod_eq_of_lt (by omega)]

theorem getsleb_prefix (d rest : List Byte) (v : BitVec 64) (off : Nat)
    (h : d.drop off = encodeS v.toInt ++ rest) (hw : d.length < W64) :
    getsleb128 d off = .ok (v, off + (encodeS v.toInt).length) := by
  unfold getsleb128
  have hlen : (encodeS v.toInt).length ≤ 10 := by
    have h1 := BitVec.le_toInt v
    have h2 := BitVec.toInt_lt (x := v)
    apply encodeS_length 9
    · have : (64 * 128 ^ 9 : Int) ≥ 2 ^ 63 := by decide
      simp at h1; omega
    · have : (64 * 128 ^ 9 : Int) ≥ 2 ^ 63 := by decide
      simp at h2; omega
  have h1 := leb_signed .exc (encodeS v.toInt) 0 0#64 rest (encodeS_terminated _) (by omega) (by decide)
  rw [encodeS_value] at h1
  simp only [BitVec.toNat_ofNat, Nat.zero_mod, Nat.zero_add, Nat.mul_zero, Int.pow_zero, Int.mul_one, Int.natCast_zero,
    Int.zero_add, BitVec.ofInt_toInt] at h1
  rw [h]
  unfold readSLEB128
  rw [h1]
  have hl := congrArg List.length h
  have hne := encodeS_ne_nil v.toInt
  have : 0 < (encodeS v.toInt).length := List.length_pos_iff.2 hne
  simp at hl
  simp only
  rw [Nat.mod_eq_of_lt (by omega)]

theorem getlength_32 (d rest : List Byte) (len off : Nat) (hlen : len < 0xfffffff0)
    (h : d.drop off = leBytes 4 len ++ rest) :
    getlength d off = .ok ((len, 4), off + 4) := by
  unfold getlength
  have e : (BitVec.ofNat 32 len).toNat = len := by simp; omega
  rw [Parse.bind_ok (getu32_prefix d rest (BitVec.ofNat 32 len) off (by rw [e]; exact h))]
  simp only [e]
  rw [if_neg (by omega), if_neg (by omega)]; rfl

theorem getlength_64 (d rest : List Byte) (len off : Nat) (hlen : len < 2 ^ 64)
    (h : d.drop off = leBytes 4 0xffffffff ++ (leBytes 8 len ++ rest)) :
    getlength d off = .ok ((len, 8), off + 12) := by
  unfold getlength
  rw [Parse.bind_ok (getu32_prefix d _ 0xffffffff#32 off h)]
  have h2 := drop_prefix h
  rw [leBytes_length] at h2
  have h3 := getuint_prefix d (leBytes 8 len) rest (off + 4) h2 (by rw [leBytes_length]; decide)
  rw [leBytes_length] at h3
  simp only [BitVec.toNat_ofNat]
  rw [if_pos (by decide), Parse.bind_ok h3, leNat_leBytes]
  simp; omega

end Pstack.Dwarf
