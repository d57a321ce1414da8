import Verif.Model.Reader
import Verif.Spec.Reader
import Verif.Proof.Window
namespace Pstack.Reader
open Pstack.Spec

theorem or_shift_toNat (x : BitVec 64) (y s : Nat) (hx : x.toNat < 2 ^ s) (hs : s < 64) (hy : y < 2 ^ 64) :
    (x ||| ((BitVec.ofNat 64 y) <<< s)).toNat = (x.toNat + y * 2 ^ s) % 2 ^ 64 := by
  rw [BitVec.toNat_or, BitVec.toNat_shiftLeft, BitVec.toNat_ofNat, Nat.mod_eq_of_lt hy, Nat.shiftLeft_eq]
  have h64 : (2 : Nat) ^ 64 = 2 ^ s * 2 ^ (64 - s) := by rw [← Nat.pow_add]; congr 1; omega
  have h1 : y * 2 ^ s % 2 ^ 64 = 2 ^ s * (y % 2 ^ (64 - s)) := by
    rw [h64, Nat.mul_comm y, Nat.mul_mod_mul_left]
  rw [h1, Nat.or_comm, ← Nat.two_pow_add_eq_or_of_lt hx]
  have h2 : y % 2 ^ (64 - s) < 2 ^ (64 - s) := Nat.mod_lt _ (Nat.two_pow_pos _)
  have h3 : 2 ^ s * (y % 2 ^ (64 - s)) + x.toNat < 2 ^ 64 := by
    calc 2 ^ s * (y % 2 ^ (64 - s)) + x.toNat < 2 ^ s * (y % 2 ^ (64 - s)) + 2 ^ s := by omega
      _ = 2 ^ s * (y % 2 ^ (64 - s) + 1) := by rw [Nat.mul_add]; omega
      _ ≤ 2 ^ s * 2 ^ (64 - s) := Nat.mul_le_mul_left _ h2
      _ = 2 ^ 64 := h64.symm
  rw [Nat.add_mod, h1, ← Nat.mod_eq_of_lt h3]
  have hx' : x.toNat % 2 ^ 64 = x.toNat := Nat.mod_eq_of_lt x.isLt
  rw [hx', Nat.add_comm]

theorem or_ones_toNat (x : BitVec 64) (s : Nat) (hx : x.toNat < 2 ^ s) (hs : s < 64) :
    (x ||| ((~~~ 0#64) <<< s)).toNat = x.toNat + (2 ^ 64 - 2 ^ s) := by
  have e : (~~~ 0#64) = BitVec.ofNat 64 (2 ^ 64 - 1) := by decide
  rw [e, or_shift_toNat x _ s hx hs (by decide)]
  have hsp : 0 < 2 ^ s := Nat.two_pow_pos s
  have hle : 2 ^ s ≤ 2 ^ 64 := Nat.pow_le_pow_right (by decide) (by omega)
  obtain ⟨k, hk⟩ : ∃ k, 2 ^ s = k + 1 := ⟨2 ^ s - 1, by omega⟩
  have h1 : x.toNat + (2 ^ 64 - 1) * 2 ^ s = (x.toNat + (2 ^ 64 - 2 ^ s)) + 2 ^ 64 * (2 ^ s - 1) := by
    rw [hk] at hle hx ⊢; simp only [Nat.add_sub_cancel]; omega
  rw [h1, Nat.add_mul_mod_self_left, Nat.mod_eq_of_lt]
  omega

theorem byte_low (b : Byte) : (b &&& 0x7f#8).setWidth 64 = BitVec.ofNat 64 (b.toNat % 128) := by
  apply BitVec.eq_of_toNat_eq
  simp only [BitVec.toNat_setWidth, BitVec.toNat_and, BitVec.toNat_ofNat]
  have : (127 % 2 ^ 8 : Nat) = 2 ^ 7 - 1 := by decide
  rw [this, Nat.and_two_pow_sub_one_eq_mod]

theorem byte_top (b : Byte) : (b &&& 0x80#8 = 0#8) ↔ b.toNat < 128 := by
  revert b; decide +kernel

theorem byte_sign (b : Byte) : (b &&& 0x40#8 ≠ 0#8) ↔ ¬ (b.toNat % 128 < 64) := by
  revert b; decide +kernel

theorem terminated_cons {b : Byte} {rest : List Byte} (h : Terminated (b :: rest)) :
    (rest = [] ∧ b.toNat < 128) ∨ (rest ≠ [] ∧ 128 ≤ b.toNat ∧ Terminated rest) := by
  cases rest with
  | nil => exact Or.inl ⟨rfl, h⟩
  | cons c cs => exact Or.inr ⟨by simp, h⟩

theorem groupValueS_cons {b : Byte} {rest : List Byte} (h : rest ≠ []) :
    groupValueS (b :: rest) = (b.toNat % 128 : Nat) + 128 * groupValueS rest := by
  cases rest with
  | nil => exact absurd rfl h
  | cons c cs => rfl

theorem leb_unsigned (over : Res (BitVec 64 × Nat)) (bs : List Byte) :
    ∀ (n : Nat) (acc : BitVec 64) (rest : List Byte), Terminated bs → n + bs.length ≤ 10 → acc.toNat < 2 ^ (7 * n) →
    leb128 false over (bs ++ rest) n acc =
      .ok (BitVec.ofNat 64 (acc.toNat + groupValue bs * 2 ^ (7 * n)), n + bs.length) := by
  induction bs with
  | nil => intro n acc rest h; exact absurd h (by simp [Terminated])
  | cons b bs ih =>
    intro n acc rest ht hn hacc
    have hlen : n ≤ 9 := by simp at hn; omega
    have hshift : ¬ (7 * n ≥ 64) := by omega
    have hlow : b.toNat % 128 < 2 ^ 64 := Nat.lt_of_lt_of_le (Nat.mod_lt _ (by decide)) (by decide)
    have hor := or_shift_toNat acc (b.toNat % 128) (7 * n) hacc (by omega) hlow
    simp only [List.cons_append, leb128, hshift, if_false, byte_low]
    rcases terminated_cons ht with ⟨hnil, hb⟩ | ⟨hne, hb, htr⟩
    · subst hnil
      rw [if_pos ((byte_top b).2 hb)]
      simp only [Bool.false_eq_true, false_and, if_false, groupValue, List.length_singleton, Nat.mul_zero, Nat.add_zero]
      congr 2
      apply BitVec.eq_of_toNat_eq
      rw [hor, BitVec.toNat_ofNat]
    · rw [if_neg (fun h => by have := (byte_top b).1 h; omega)]
      have hpow : (2 : Nat) ^ (7 * (n + 1)) = 2 ^ (7 * n) * 128 := by rw [Nat.mul_add, Nat.pow_add]
      by_cases hn9 : n = 9
      · -- only one group may remain after shift 63; but the list continues, so at least 11 bytes
        exfalso
        subst hn9
        have : bs.length ≠ 0 := by simpa using hne
        simp at hn; omega
      · have hlt : acc.toNat + b.toNat % 128 * 2 ^ (7 * n) < 2 ^ (7 * (n + 1)) := by
          have : b.toNat % 128 < 128 := Nat.mod_lt _ (by decide)
          rw [hpow]
          calc acc.toNat + b.toNat % 128 * 2 ^ (7 * n) < 2 ^ (7 * n) + b.toNat % 128 * 2 ^ (7 * n) := by omega
            _ = (b.toNat % 128 + 1) * 2 ^ (7 * n) := by rw [Nat.add_mul]; omega
            _ ≤ 128 * 2 ^ (7 * n) := Nat.mul_le_mul_right _ (by omega)
            _ = 2 ^ (7 * n) * 128 := Nat.mul_comm _ _
        have h64 : (2 : Nat) ^ (7 * (n + 1)) ≤ 2 ^ 64 := Nat.pow_le_pow_right (by decide) (by omega)
        replace hor := hor.trans (Nat.mod_eq_of_lt (by omega))
        rw [ih (n + 1) _ rest htr (by simp at hn; omega) (by rw [hor]; exact hlt)]
        rw [hor, groupValue, hpow]
        simp only [List.length_cons]
        congr 2
        · congr 1
          rw [Nat.add_mul, ← Nat.add_assoc]
          congr 1
          rw [Nat.mul_comm (2 ^ (7 * n)) 128, ← Nat.mul_assoc, Nat.mul_comm (groupValue bs) 128]
        · omega

theorem leb_signed (over : Res (BitVec 64 × Nat)) (bs : List Byte) :
    ∀ (n : Nat) (acc : BitVec 64) (rest : List Byte), Terminated bs → n + bs.length ≤ 10 → acc.toNat < 2 ^ (7 * n) →
    leb128 true over (bs ++ rest) n acc =
      .ok (BitVec.ofInt 64 (acc.toNat + groupValueS bs * 2 ^ (7 * n)), n + bs.length) := by
  induction bs with
  | nil => intro n acc rest h; exact absurd h (by simp [Terminated])
  | cons b bs ih =>
    intro n acc rest ht hn hacc
    have hlen : n ≤ 9 := by simp at hn; omega
    have hshift : ¬ (7 * n ≥ 64) := by omega
    have h128 : b.toNat % 128 < 128 := Nat.mod_lt _ (by decide)
    have hlow : b.toNat % 128 < 2 ^ 64 := by omega
    have hor := or_shift_toNat acc (b.toNat % 128) (7 * n) hacc (by omega) hlow
    have hpow : (2 : Nat) ^ (7 * (n + 1)) = 2 ^ (7 * n) * 128 := by rw [Nat.mul_add, Nat.pow_add]
    have hlt : acc.toNat + b.toNat % 128 * 2 ^ (7 * n) < 2 ^ (7 * (n + 1)) := by
      rw [hpow]
      calc acc.toNat + b.toNat % 128 * 2 ^ (7 * n) < 2 ^ (7 * n) + b.toNat % 128 * 2 ^ (7 * n) := by omega
        _ = (b.toNat % 128 + 1) * 2 ^ (7 * n) := by rw [Nat.add_mul]; omega
        _ ≤ 128 * 2 ^ (7 * n) := Nat.mul_le_mul_right _ (by omega)
        _ = 2 ^ (7 * n) * 128 := Nat.mul_comm _ _
    simp only [List.cons_append, leb128, hshift, if_false, byte_low]
    rcases terminated_cons ht with ⟨hnil, hb⟩ | ⟨hne, hb, htr⟩
    · subst hnil
      rw [if_pos ((byte_top b).2 hb)]
      simp only [true_and, groupValueS, List.length_singleton]
      congr 2
      by_cases hsg : b.toNat % 128 < 64
      · rw [if_neg (fun h => ((byte_sign b).1 h.2) hsg), if_pos hsg]
        apply BitVec.eq_of_toNat_eq
        rw [hor, BitVec.toNat_ofInt]
        apply Int.ofNat_inj.1
        simp only [Int.natCast_emod, Int.natCast_pow, Int.natCast_add, Int.natCast_mul]
        rw [Int.toNat_of_nonneg (Int.emod_nonneg _ (by decide))]
        simp
      · by_cases hs64 : 7 * n + 7 < 64
        · rw [if_pos ⟨hs64, (byte_sign b).2 hsg⟩, if_neg hsg]
          have h64 : (2 : Nat) ^ (7 * (n + 1)) ≤ 2 ^ 63 := Nat.pow_le_pow_right (by decide) (by omega)
          replace hor := hor.trans (Nat.mod_eq_of_lt (by omega))
          apply BitVec.eq_of_toNat_eq
          rw [or_ones_toNat _ _ (by rw [hor]; exact hlt) hs64, hor, BitVec.toNat_ofInt]
          apply Int.ofNat_inj.1
          rw [Int.toNat_of_nonneg (Int.emod_nonneg _ (by decide))]
          have e7 : (2 : Nat) ^ (7 * n + 7) = 2 ^ (7 * n) * 128 := by rw [Nat.pow_add]
          rw [e7] at *
          rw [hpow] at hlt h64
          have := Nat.two_pow_pos (7 * n)
          have hcast : ((2 : Int) ^ (7 * n)) = ((2 ^ (7 * n) : Nat) : Int) := by simp
          rw [hcast]
          generalize (2 : Nat) ^ (7 * n) = P at *
          generalize b.toNat % 128 = v at *
          have hsub : ((v : Int) - 128) * (P : Int) = ((v * P : Nat) : Int) - ((P * 128 : Nat) : Int) := by
            rw [Int.sub_mul]; push_cast; rw [Int.mul_comm (128 : Int)]
          rw [hsub]
          generalize v * P = VP at *
          generalize P * 128 = P128 at *
          symm
          have : ((acc.toNat : Int) + ((VP : Int) - P128)) % ((2 ^ 64 : Nat) : Int) = acc.toNat + VP - P128 + (2 ^ 64 : Nat) := by
            omega
          rw [this]
          omega
        · have hn9 : n = 9 := by omega
          subst hn9
          rw [if_neg (by simp), if_neg hsg]
          apply BitVec.eq_of_toNat_eq
          rw [hor, BitVec.toNat_ofInt]
          apply Int.ofNat_inj.1
          rw [Int.toNat_of_nonneg (Int.emod_nonneg _ (by decide))]
          omega
    · rw [if_neg (fun h => by have := (byte_top b).1 h; omega)]
      by_cases hn9 : n = 9
      · exfalso
        subst hn9
        have : bs.length ≠ 0 := by simpa using hne
        simp at hn; omega
      · have h64 : (2 : Nat) ^ (7 * (n + 1)) ≤ 2 ^ 64 := Nat.pow_le_pow_right (by decide) (by omega)
        replace hor := hor.trans (Nat.mod_eq_of_lt (by omega))
        rw [ih (n + 1) _ rest htr (by simp at hn; omega) (by rw [hor]; exact hlt)]
        rw [hor, groupValueS_cons hne]
        have hpowi : (2 : Int) ^ (7 * (n + 1)) = 2 ^ (7 * n) * 128 := by rw [Nat.mul_add, Int.pow_add]; rfl
        rw [hpowi]
        simp only [List.length_cons]
        congr 2
        · congr 1
          push_cast
          rw [Int.add_mul, ← Int.add_assoc]
          congr 1
          rw [Int.mul_comm (2 ^ (7 * n)) 128, ← Int.mul_assoc, Int.mul_comm (groupValueS bs) 128]
        · omega

theorem leb_overlong (signed : Bool) (over : Res (BitVec 64 × Nat)) (bs : List Byte) :
    ∀ (n : Nat) (acc : BitVec 64) (rest : List Byte), Terminated bs → 10 < n + bs.length → n ≤ 10 →
    leb128 signed over (bs ++ rest) n acc = .ub := by
  induction bs with
  | nil => intro n acc rest h; exact absurd h (by simp [Terminated])
  | cons b bs ih =>
    intro n acc rest ht hn hn10
    simp only [List.cons_append, leb128]
    by_cases h64 : 7 * n ≥ 64
    · simp [h64]
    · simp only [h64, if_false]
      rcases terminated_cons ht with ⟨hnil, hb⟩ | ⟨hne, hb, htr⟩
      · subst hnil; simp at hn; omega
      · rw [if_neg (fun h => by have := (byte_top b).1 h; omega)]
        exact ih _ _ _ htr (by simp at hn; omega) (by omega)

theorem lebIter_eq (signed : Bool) (rd : Nat → Nat → Res (List Byte)) (data : List Byte) (hrd : ServesList rd data)
    (base : Nat) (fuel : Nat) :
    ∀ (w : ArrWin) (n : Nat) (acc : BitVec 64), WinOK data base 1 w → 12 ≤ fuel + n → n ≤ 11 →
      lebIter signed rd base fuel w n acc = leb128 signed .exc (data.drop (base + n)) n acc := by
  induction fuel with
  | zero => intro w n acc _ h1 h2; omega
  | succ fuel ih =>
    intro w n acc hw h1 h2
    obtain ⟨g1, g2⟩ := getitem_spec rd data hrd base 1 1024 (by decide) (by decide) w hw n
    unfold lebIter
    generalize w.getitem rd base 1 1024 n = g at g1 g2 ⊢
    obtain ⟨w', r⟩ := g
    simp only at g1 g2
    subst g2
    by_cases hin : base + n < data.length
    · have e : element data base 1 n = [data[base + n]] := by
        unfold element
        rw [Nat.mul_one, List.drop_eq_getElem_cons hin, List.take_succ_cons, List.take_zero]
      rw [if_pos (by omega), e, List.drop_eq_getElem_cons hin]
      dsimp only [leb128]
      split
      · rfl
      · split
        · rfl
        · rename_i hsh _
          rw [ih w' (n + 1) _ g1 (by omega) (by omega)]
          rfl
    · rw [if_neg (by omega), List.drop_eq_nil_of_le (by omega)]
      rfl

theorem servesList_of_wf (r : Rdr) (h : r.WF) (K : Nat) (hK : r.size + K < W64) :
    (∀ off, off ≤ r.content.length → r.read off K = .ok ((r.content.drop off).take K)) ∧
    (∀ off, r.content.length < off → r.read off K = .exc ∨ r.read off K = .ok []) := by
  obtain ⟨hl, _⟩ := content_length r h
  refine ⟨fun off ho => read_content r h off K (by omega) (by omega), ?_⟩
  intro off ho
  rw [hl] at ho
  cases r with
  | mem buf start size => left; simp only [Rdr.size] at ho; simp [Rdr.read, ho]
  | file data => right; simp only [Rdr.size] at ho; simp only [Rdr.read]; rw [List.drop_eq_nil_of_le (by omega)]; simp
  | null => simp [Rdr.WF] at h
  | window up o l => left; simp only [Rdr.size] at ho; simp [Rdr.read, ho]

theorem lebIter_congr (signed : Bool) (rd rd' : Nat → Nat → Res (List Byte)) (base : Nat)
    (hrd : ∀ off, rd off 1024 = rd' off 1024) (fuel : Nat) :
    ∀ w n acc, lebIter signed rd base fuel w n acc = lebIter signed rd' base fuel w n acc := by
  induction fuel with
  | zero => intros; rfl
  | succ fuel ih =>
    intro w n acc
    have hg : w.getitem rd base 1 1024 n = w.getitem rd' base 1 1024 n := by
      unfold ArrWin.getitem
      simp only [Nat.mul_one, hrd]
    unfold lebIter
    rw [hg]
    split <;> simp_all

theorem readLEB_eq (signed : Bool) (r : Rdr) (h : r.WF) (hK : r.size + 1024 < W64) (off : Nat) (bs rest : List Byte)
    (hc : r.content.drop off = bs ++ rest) (ht : Terminated bs) :
    r.readLEB signed off = leb128 signed .exc (bs ++ rest) 0 0#64 := by
  have over : ∀ (o1 o2 : Res (BitVec 64 × Nat)) (bs rest : List Byte) (n : Nat) (acc : BitVec 64), Terminated bs →
      leb128 signed o1 (bs ++ rest) n acc = leb128 signed o2 (bs ++ rest) n acc := by
    intro o1 o2 bs
    induction bs with
    | nil => intro rest n acc h; exact absurd h (by simp [Terminated])
    | cons b bs ih =>
      intro rest n acc ht
      simp only [List.cons_append, leb128]
      split
      · rfl
      · rcases terminated_cons ht with ⟨hnil, hb⟩ | ⟨hne, hb, htr⟩
        · rw [if_pos ((byte_top b).2 hb), if_pos ((byte_top b).2 hb)]
        · split
          · rfl
          · exact ih rest _ _ htr
  have viaIter : ∀ r : Rdr, r.WF → r.size + 1024 < W64 → r.content.drop off = bs ++ rest →
      lebIter signed r.read off 12 ⟨0, []⟩ 0 0#64 = leb128 signed .exc (bs ++ rest) 0 0#64 := by
    intro r h hK hc
    obtain ⟨s1, s2⟩ := servesList_of_wf r h 1024 hK
    let rd' : Nat → Nat → Res (List Byte) := fun o n =>
      if n = 1024 then r.read o 1024 else .ok ((r.content.drop o).take n)
    have hrd' : ServesList rd' r.content := by
      refine ⟨?_, ?_⟩
      · intro o n ho
        by_cases hn : n = 1024
        · subst hn; simpa [rd'] using s1 o ho
        · simp [rd', hn]
      · intro o n ho
        by_cases hn : n = 1024
        · subst hn; simpa [rd'] using s2 o ho
        · right; simp only [rd', hn, if_false]; rw [List.drop_eq_nil_of_le (by omega)]; simp
    rw [lebIter_congr signed r.read rd' off (by intro o; simp [rd'])]
    rw [lebIter_eq signed rd' r.content hrd' off 12 _ 0 _ (by intro i hi; simp at hi) (by omega) (by omega)]
    rw [Nat.add_zero, hc]
  cases r with
  | mem buf start size =>
    simp only [Rdr.readLEB]
    have hx := hc
    simp only [Rdr.content, List.drop_take, List.drop_drop] at hx
    have : buf.drop (start + off) = bs ++ (rest ++ (buf.drop (start + off)).drop (size - off)) := by
      rw [← List.append_assoc, ← hx, List.take_append_drop]
    rw [this]
    -- the decoder stops within `bs`
    have stop : ∀ (bs r1 r2 : List Byte) (n : Nat) (acc : BitVec 64), Terminated bs →
        leb128 signed .exc (bs ++ r1) n acc = leb128 signed .exc (bs ++ r2) n acc := by
      intro bs
      induction bs with
      | nil => intro r1 r2 n acc h; exact absurd h (by simp [Terminated])
      | cons b bs ih =>
        intro r1 r2 n acc ht
        simp only [List.cons_append, leb128]
        split
        · rfl
        · rcases terminated_cons ht with ⟨hnil, hb⟩ | ⟨hne, hb, htr⟩
          · rw [if_pos ((byte_top b).2 hb), if_pos ((byte_top b).2 hb)]
          · split
            · rfl
            · exact ih r1 r2 _ _ htr
    rw [over .ub .exc _ _ _ _ ht, stop bs _ rest _ _ ht]
  | file data => exact viaIter _ h hK hc
  | null => simp [Rdr.WF] at h
  | window up o l => exact viaIter _ h hK hc

/-! ### encoders -/

theorem encodeU_ne_nil (n : Nat) : encodeU n ≠ [] := by
  unfold encodeU; split <;> simp

theorem encodeU_terminated (n : Nat) : Terminated (encodeU n) := by
  induction n using Nat.strongRecOn with
  | ind n ih =>
    unfold encodeU
    split
    · simp [Terminated]; omega
    · have h := ih (n / 128) (by omega)
      have hne := encodeU_ne_nil (n / 128)
      cases he : encodeU (n / 128) with
      | nil => exact absurd he hne
      | cons c cs =>
        rw [he] at h
        refine ⟨?_, h⟩
        simp; omega

theorem encodeU_value (n : Nat) : groupValue (encodeU n) = n := by
  induction n using Nat.strongRecOn with
  | ind n ih =>
    unfold encodeU
    split
    · simp [groupValue]; omega
    · simp only [groupValue, BitVec.toNat_ofNat]
      rw [ih (n / 128) (by omega)]
      omega

theorem encodeU_length (k : Nat) : ∀ n, n < 128 ^ k → 0 < k → (encodeU n).length ≤ k := by
  induction k with
  | zero => intro n _ h; omega
  | succ k ih =>
    intro n hn _
    unfold encodeU
    split
    · simp
    · rw [Nat.pow_succ] at hn
      cases k with
      | zero => omega
      | succ k =>
        have := ih (n / 128) (by rw [Nat.div_lt_iff_lt_mul (by decide)]; exact hn) (by omega)
        simp only [List.length_cons]; omega

theorem encodeS_ne_nil (z : Int) : encodeS z ≠ [] := by
  unfold encodeS; split <;> simp

theorem encodeS_terminated (z : Int) : Terminated (encodeS z) := by
  fun_induction encodeS z with
  | case1 z h =>
    simp only [Terminated, BitVec.toNat_ofInt]; omega
  | case2 z h ih =>
    have hne := encodeS_ne_nil (z / 128)
    cases he : encodeS (z / 128) with
    | nil => exact absurd he hne
    | cons c cs =>
      rw [he] at ih
      refine ⟨?_, ih⟩
      simp only [BitVec.toNat_ofInt]; omega

theorem encodeS_value (z : Int) : groupValueS (encodeS z) = z := by
  fun_induction encodeS z with
  | case1 z h =>
    simp only [groupValueS, BitVec.toNat_ofInt]; omega
  | case2 z h ih =>
    rw [groupValueS_cons (encodeS_ne_nil _), ih]
    simp only [BitVec.toNat_ofInt]; omega

theorem encodeS_length (k : Nat) : ∀ z : Int, -(64 * 128 ^ k : Int) ≤ z → z < 64 * 128 ^ k → (encodeS z).length ≤ k + 1 := by
  induction k with
  | zero =>
    intro z h1 h2
    unfold encodeS
    rw [if_pos (by omega)]; simp
  | succ k ih =>
    intro z h1 h2
    unfold encodeS
    split
    · simp
    · rw [Int.pow_succ] at h1 h2
      have hp : (0 : Int) < 128 ^ k := Int.pow_pos (by decide)
      generalize (128 : Int) ^ k = P at *
      have := ih (z / 128) (by omega) (by omega)
      simp only [List.length_cons]; omega

end Pstack.Reader
