import Verif.Proof.DwarfReader
/-
Property theorems C08: fixed width integers and the initial length.
-/
namespace Pstack.Props
open Pstack.Dwarf Pstack.Spec

/-- C08. An unsigned read of `n ≤ 8` bytes that are all there gives their little-endian value and moves the cursor by
exactly `n`. -/
theorem C08_getuint (d : List Byte) (off n : Nat) (hn : n ≤ 8) (hin : off + n ≤ d.length) :
    ∃ v, getuint d n off = .ok (v, off + n) ∧ v.toNat = leNat ((d.drop off).take n) := by
  have hsplit : d.drop off = (d.drop off).take n ++ (d.drop off).drop n := (List.take_append_drop _ _).symm
  have hl : ((d.drop off).take n).length = n := by simp; omega
  have h := getuint_prefix d _ _ off hsplit (by rw [hl]; omega)
  rw [hl] at h
  refine ⟨_, h, ?_⟩
  rw [BitVec.toNat_ofNat]
  apply Nat.mod_eq_of_lt
  have := leNat_lt ((d.drop off).take n)
  rw [hl] at this
  exact Nat.lt_of_lt_of_le this (Nat.pow_le_pow_right (by decide) hn)

/-- C08. A signed read of `1 ≤ n ≤ 8` bytes gives their two's complement value, sign-extended. -/
theorem C08_getint (d : List Byte) (off n : Nat) (hn : n ≤ 8) (h1 : 1 ≤ n) (hin : off + n ≤ d.length) :
    ∃ v, getint d n off = .ok (v, off + n) ∧ v.toInt = leInt ((d.drop off).take n) := by
  have hsplit : d.drop off = (d.drop off).take n ++ (d.drop off).drop n := (List.take_append_drop _ _).symm
  have hl : ((d.drop off).take n).length = n := by simp; omega
  have h := getint_prefix d _ _ off hsplit (by rw [hl]; omega) (by intro he; rw [he] at hl; simp at hl; omega)
  rw [hl] at h
  refine ⟨_, h, ?_⟩
  generalize hbs : (d.drop off).take n = bs at *
  have hlt := leNat_lt bs
  rw [hl] at hlt
  unfold leInt
  rw [hl]
  have h256 : (256 : Nat) ^ n = 2 ^ (8 * n) := by rw [Nat.pow_mul]
  rw [h256] at hlt
  have hsplit2 : (2 : Nat) ^ (8 * n) = 2 * 2 ^ (8 * n - 1) := by
    rw [← Nat.pow_succ']; congr 1; omega
  have hle : (2 : Nat) ^ (8 * n - 1) ≤ 2 ^ 63 := Nat.pow_le_pow_right (by decide) (by omega)
  have hc : ((2 : Int) ^ (8 * n)) = ((2 ^ (8 * n) : Nat) : Int) := by simp
  rw [hc]
  generalize (2 : Nat) ^ (8 * n) = P at *
  rw [BitVec.toInt_ofInt]
  split <;> (apply Int.bmod_eq_of_le <;> omega)

/-- C08. A read that would pass the end of the data raises an exception. -/
theorem C08_past_end (d : List Byte) (off n : Nat) (hn : n ≤ 16) (h1 : 1 ≤ n) (hout : d.length < off + n) :
    getuint d n off = .exc ∧ getint d n off = .exc := by
  constructor
  · unfold getuint
    rw [if_neg (by omega), Parse.bind_exc (getBytes_exc d n off h1 hout)]
  · unfold getint
    rw [if_neg (by omega), Parse.bind_exc (getBytes_exc d n off h1 hout)]

/-- C08. The 1, 2 and 4 byte readers decode what a little-endian writer wrote and move by 1, 2 and 4. -/
theorem C08_getu8_16_32 (d rest : List Byte) (off : Nat) :
    (∀ b, d.drop off = b :: rest → getu8 d off = .ok (b, off + 1)) ∧
    (∀ v : BitVec 16, d.drop off = leBytes 2 v.toNat ++ rest → getu16 d off = .ok (v, off + 2)) ∧
    (∀ v : BitVec 32, d.drop off = leBytes 4 v.toNat ++ rest → getu32 d off = .ok (v, off + 4)) :=
  ⟨fun b h => getu8_prefix d rest b off h, fun v h => getu16_prefix d rest v off h, fun v h => getu32_prefix d rest v off h⟩

/-- C08. Initial length: a 32-bit length below 0xfffffff0 stands for itself with 4-byte offsets; the escape 0xffffffff
is followed by a 64-bit length with 8-byte offsets; the other reserved values give a length of zero. -/
theorem C08_initial_length (d rest : List Byte) (off : Nat) :
    (∀ len, len < 0xfffffff0 → d.drop off = leBytes 4 len ++ rest → getlength d off = .ok ((len, 4), off + 4)) ∧
    (∀ len, len < 2 ^ 64 → d.drop off = leBytes 4 0xffffffff ++ (leBytes 8 len ++ rest) →
      getlength d off = .ok ((len, 8), off + 12)) ∧
    (∀ len, 0xfffffff0 ≤ len → len < 0xffffffff → d.drop off = leBytes 4 len ++ rest →
      getlength d off = .ok ((0, 0), off + 4)) := by
  refine ⟨fun len h1 h2 => getlength_32 d rest len off h1 h2, fun len h1 h2 => getlength_64 d rest len off h1 h2, ?_⟩
  intro len h1 h2 h3
  unfold getlength
  have e : (BitVec.ofNat 32 len).toNat = len := by simp; omega
  rw [Parse.bind_ok (getu32_prefix d rest (BitVec.ofNat 32 len) off (by rw [e]; exact h3))]
  simp only [e]
  rw [if_neg (by omega), if_pos (by omega)]; rfl

-- non-vacuity
example : ([0xff#8, 0xfe#8, 0xff#8, 7#8].drop 1) = leBytes 2 (0xfffe#16).toNat ++ [7#8] := by decide
example : leInt [0xfe#8, 0xff#8] = -2 := by decide

end Pstack.Props
