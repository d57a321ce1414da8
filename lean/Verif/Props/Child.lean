import Verif.Spec.Child
import Verif.Proof.Maps
/-
C88: the command that is run under pstack.
-/
namespace Pstack.Props
open Pstack.Child Pstack.Spec.Cmd
open Pstack.Spec (digitChar digits hexText padTo)

/-! ### The words of the command -/

/-- What the loop makes of words that begin at the offset `k`. -/
def cutAt (k : Nat) : List Text → List Text
  | [] => []
  | [w] => [w]
  | w :: ws => (joined (w :: ws)).take (k + w.length) :: cutAt (k + w.length + 1) ws

theorem find_blank {w : Text} (h : ' ' ∉ w) (r : Text) : (w ++ ' ' :: r).findIdx? (· == ' ') = some w.length := by
  induction w with
  | nil => rfl
  | cons c w ih =>
    have hc : (c == ' ') = false := by
      rw [beq_eq_false_iff_ne]; exact fun k => h (by rw [k]; exact .head _)
    rw [List.cons_append, List.findIdx?_cons, hc, ih (fun k => h (.tail _ k))]
    rfl

theorem find_blank_none {w : Text} (h : ' ' ∉ w) : w.findIdx? (· == ' ') = none := by
  rw [List.findIdx?_eq_none_iff]
  intro c hc
  rw [beq_eq_false_iff_ne]
  exact fun k => h (by rw [← k]; exact hc)

theorem joined_length : ∀ ws : List Text, ws.length ≤ (joined ws).length + 1
  | [] => Nat.zero_le _
  | [w] => Nat.le_add_left _ _
  | w :: v :: ws => by
    have := joined_length (v :: ws)
    simp only [joined, List.length_append, List.length_cons] at this ⊢
    omega

theorem split_loop : ∀ (ws : List Text) (pre : Text) (n : Nat), Words ws → ws.length ≤ n → splitLoop (pre ++ joined ws) n pre.length = cutAt pre.length ws
  | [], _, _, hw, _ => absurd rfl hw.1
  | [w], pre, n, hw, hn => by
    obtain ⟨m, rfl⟩ : ∃ m, n = m + 1 := ⟨n - 1, by simp at hn; omega⟩
    rw [splitLoop, findBlank, joined, List.drop_left, find_blank_none (hw.2 w (.head _))]
    rfl
  | w :: v :: ws, pre, n, hw, hn => by
    obtain ⟨m, rfl⟩ : ∃ m, n = m + 1 := ⟨n - 1, by simp at hn; omega⟩
    rw [splitLoop, findBlank, List.drop_left]
    have hj : joined (w :: v :: ws) = w ++ ' ' :: joined (v :: ws) := rfl
    have ih := split_loop (v :: ws) (pre ++ w ++ [' ']) m ⟨by simp, fun x hx => hw.2 x (.tail _ hx)⟩ (by simp at hn ⊢; omega)
    have e1 : pre ++ w ++ [' '] ++ joined (v :: ws) = pre ++ joined (w :: v :: ws) := by rw [hj]; simp
    have e2 : (pre ++ w ++ [' ']).length = pre.length + w.length + 1 := by simp only [List.length_append, List.length_singleton]
    rw [e1, e2] at ih
    rw [hj, find_blank (hw.2 w (.head _)), ← hj]
    simp only [Option.map_some]
    rw [ih]
    rfl

theorem split_words {ws : List Text} (h : Words ws) : splitArgs (joined ws) = cutAt 0 ws := split_loop ws [] _ h (joined_length ws)

/-- C88. A command of one or two words is run with these words as its name and argument. -/
theorem C88_words_partial {ws : List Text} (h : Words ws) (h2 : ws.length ≤ 2) : splitArgs (joined ws) = ws := by
  rw [split_words h]
  cases ws with
  | nil => rfl
  | cons w ws =>
    cases ws with
    | nil => rfl
    | cons v ws =>
      cases ws with
      | nil =>
        show [(w ++ ' ' :: v).take (0 + w.length), v] = [w, v]
        rw [Nat.zero_add, List.take_left]
      | cons u ws => simp at h2

theorem cut_length (ws : List Text) : ∀ k, (cutAt k ws).length = ws.length := by
  induction ws with
  | nil => exact fun _ => rfl
  | cons w ws ih =>
    intro k
    cases ws with
    | nil => rfl
    | cons v ws =>
      rw [cutAt, List.length_cons, ih, List.length_cons]
      · rfl
      · exact fun h => nomatch h

theorem cut_last (ws : List Text) : ∀ k, (cutAt k ws).getLast? = ws.getLast? := by
  induction ws with
  | nil => exact fun _ => rfl
  | cons w ws ih =>
    intro k
    cases ws with
    | nil => rfl
    | cons v ws =>
      rw [cutAt]
      have h := ih (k + w.length + 1)
      have hl := cut_length (v :: ws) (k + w.length + 1)
      · generalize cutAt (k + w.length + 1) (v :: ws) = l at h hl
        cases l with
        | nil => simp at hl
        | cons x l => rw [List.getLast?_cons_cons, List.getLast?_cons_cons, h]
      · simp

/-- C88. Whatever the number of words, there are as many arguments, the program is the first word, and the last argument the last. -/
theorem C88_program {ws : List Text} (h : Words ws) : (splitArgs (joined ws)).length = ws.length ∧ (splitArgs (joined ws)).head? = ws.head? ∧ (splitArgs (joined ws)).getLast? = ws.getLast? := by
  rw [split_words h]
  refine ⟨cut_length ws 0, ?_, cut_last ws 0⟩
  cases ws with
  | nil => rfl
  | cons w ws =>
    cases ws with
    | nil => rfl
    | cons v ws =>
      show some ((w ++ ' ' :: joined (v :: ws)).take (0 + w.length)) = some w
      rw [Nat.zero_add, List.take_left]

theorem cut_middle : ∀ (ws : List Text) (k i : Nat) (w : Text), 0 < k + i → i + 1 < ws.length → ws[i]? = some w → ∃ rest, (cutAt k ws)[i]? = some (w ++ ' ' :: rest)
  | [], _, _, _, _, h, _ => by simp at h
  | [_], _, _, _, _, h, _ => by simp at h
  | w :: v :: ws, k, 0, x, hk, _, hx => by
    injection hx with hx
    subst hx
    refine ⟨(joined (v :: ws)).take (k - 1), ?_⟩
    show some ((w ++ ' ' :: joined (v :: ws)).take (k + w.length)) = _
    rw [List.take_append, List.take_of_length_le (by omega), show k + w.length - w.length = (k - 1) + 1 by omega, List.take_succ_cons]
  | w :: v :: ws, k, i + 1, x, _, hl, hx => by
    obtain ⟨rest, h⟩ := cut_middle (v :: ws) (k + w.length + 1) i x (by omega) (by simp at hl ⊢; omega) hx
    exact ⟨rest, h⟩

/-- C88, negation. Every argument but the first and the last has some of what follows it in the command at its end. -/
theorem C88_not_words {ws : List Text} (h : Words ws) {i : Nat} {w : Text} (h0 : 0 < i) (hi : i + 1 < ws.length) (hw : ws[i]? = some w) :
    ∃ rest, (splitArgs (joined ws))[i]? = some (w ++ ' ' :: rest) := by
  rw [split_words h]
  exact cut_middle ws 0 i w (by omega) hi hw

/-! ### The status file -/

theorem hex_digit : ∀ d, d < 16 → hexDigit (digitChar d) = some d ∧ isSpace (digitChar d) = false ∧ digitChar d ≠ '-' ∧ digitChar d ≠ '+' ∧ digitChar d ≠ 'x' ∧ digitChar d ≠ 'X' := by decide

theorem hex_digits (n : Nat) : ∀ t, hexDigits 0 (digits 16 n ++ t) = hexDigits n t := by
  induction n using Nat.strongRecOn with
  | ind n ih =>
    intro t
    rw [digits]
    by_cases h : n < 16 ∨ 16 < 2
    · rw [dif_pos h]
      have hn : n < 16 := by omega
      show hexDigits 0 (digitChar n :: t) = _
      rw [hexDigits, (hex_digit n hn).1]
      simp
    · rw [dif_neg h, List.append_assoc, ih (n / 16) (by omega)]
      show hexDigits (n / 16) (digitChar (n % 16) :: t) = _
      rw [hexDigits, (hex_digit (n % 16) (by omega)).1]
      simp only
      rw [Nat.div_add_mod]

theorem hex_zeros (k : Nat) (t : Text) : hexDigits 0 (List.replicate k '0' ++ t) = hexDigits 0 t := by
  induction k with
  | zero => rfl
  | succ k ih => rw [List.replicate_succ, List.cons_append, hexDigits]; exact ih

theorem str_hex (v : BitVec 64) : strtoull (hexText 16 v.toNat ++ ['\n']) = v := by
  obtain ⟨hne, hd⟩ := Spec.hexText_ok 16 v.toNat
  have hv : hexDigits 0 (hexText 16 v.toNat ++ ['\n']) = v.toNat := by
    unfold hexText padTo
    rw [List.append_assoc, hex_zeros, hex_digits]
    rfl
  unfold strtoull
  generalize hexText 16 v.toNat = l at hne hd hv
  cases l with
  | nil => exact absurd rfl hne
  | cons c l =>
    obtain ⟨d, hd1, rfl⟩ := hd c (.head _)
    obtain ⟨_, k2, k3, k4, _, _⟩ := hex_digit d hd1
    have e1 : (digitChar d :: l ++ ['\n']).dropWhile isSpace = digitChar d :: l ++ ['\n'] := by
      rw [List.cons_append, List.dropWhile_cons, k2]; rfl
    have e2 : sign (digitChar d :: l ++ ['\n']) = (false, digitChar d :: l ++ ['\n']) := by
      rw [List.cons_append, sign]
      · exact fun r h => k3 (by injection h)
      · exact fun r h => k4 (by injection h)
    have e3 : dropX (digitChar d :: l ++ ['\n']) = digitChar d :: l ++ ['\n'] := by
      have key : ∀ t, (∀ x y r, t = '0' :: x :: y :: r → x ≠ 'x' ∧ x ≠ 'X') → dropX t = t := by
        intro t ht
        unfold dropX
        split
        · rename_i x y r
          obtain ⟨g1, g2⟩ := ht _ _ _ rfl
          rw [if_neg (fun k => by rcases k.1 with k | k <;> contradiction)]
        · rfl
      apply key
      intro x y r h
      rw [List.cons_append] at h
      injection h with _ h
      cases l with
      | nil => cases h
      | cons c l =>
        rw [List.cons_append] at h
        injection h with h _
        obtain ⟨e, he, rfl⟩ := hd c (.tail _ (.head _))
        obtain ⟨_, _, _, _, g5, g6⟩ := hex_digit e he
        rw [← h]
        exact ⟨g5, g6⟩
    rw [e1, e2]
    simp only [e3, hv]
    have := v.isLt
    rw [if_neg (by omega)]
    simp

theorem digits_length : ∀ (k n : Nat), n < 16 ^ (k + 1) → (digits 16 n).length ≤ k + 1
  | 0, n, h => by
    rw [digits, dif_pos (.inl (by simpa using h))]; simp
  | k + 1, n, h => by
    rw [digits]
    by_cases hn : n < 16 ∨ 16 < 2
    · rw [dif_pos hn]; simp
    · rw [dif_neg hn, List.length_append]
      have := digits_length k (n / 16) (by rw [Nat.pow_succ] at h; omega)
      simp only [List.length_singleton]; omega

theorem hex_length (v : BitVec 64) : (hexText 16 v.toNat).length = 16 := by
  have := digits_length 15 v.toNat (by have := v.isLt; omega)
  unfold hexText padTo
  rw [List.length_append, List.length_replicate]; omega

theorem get_lines {l : Text} (h : '\n' ∉ l) (rest : Text) : ∀ (room : Nat) (cur : Text), ∃ ps : List Text,
    getLines room cur (l ++ '\n' :: rest) = ps ++ getLines (pathMax - 1) [] rest ∧ ps.flatten = cur.reverse ++ l ++ ['\n'] ∧
    (cur.length + l.length < room + cur.length → ps = [cur.reverse ++ l ++ ['\n']]) := by
  induction l with
  | nil =>
    intro room cur
    refine ⟨[('\n' :: cur).reverse], ?_, by simp, fun _ => by simp⟩
    rw [List.nil_append, getLines, if_pos (.inl rfl)]
    rfl
  | cons c l ih =>
    intro room cur
    have hc : c ≠ '\n' := fun k => h (by rw [k]; exact .head _)
    rw [List.cons_append, getLines]
    by_cases hr : room ≤ 1
    · rw [if_pos (.inr hr)]
      obtain ⟨ps, h1, h2, _⟩ := ih (fun k => h (.tail _ k)) (pathMax - 1) []
      refine ⟨(c :: cur).reverse :: ps, by rw [h1]; rfl, by rw [List.flatten_cons, h2]; simp, fun k => ?_⟩
      simp only [List.length_cons] at k; omega
    · rw [if_neg (by simp [hc, hr])]
      obtain ⟨ps, h1, h2, h3⟩ := ih (fun k => h (.tail _ k)) (room - 1) (c :: cur)
      refine ⟨ps, h1, by rw [h2]; simp, fun k => ?_⟩
      rw [h3 (by simp only [List.length_cons] at k ⊢; omega)]
      simp

theorem mask_blk (v : BitVec 64) : maskText "SigBlk" v = tagBlk ++ hexText 16 v.toNat := rfl
theorem mask_cgt (v : BitVec 64) : maskText "SigCgt" v = tagCgt ++ hexText 16 v.toNat := rfl
theorem mask_ign (v : BitVec 64) : maskText "SigIgn" v = tagIgn ++ hexText 16 v.toNat := rfl

theorem take8 {a b : Text} (h : a.length = 8) : (a ++ b).take 8 = a := List.take_left' h
theorem drop8 {a b : Text} (h : a.length = 8) : (a ++ b).drop 8 = b := List.drop_left' h

theorem line_blk (m : Masks) (v : BitVec 64) : maskLine m (maskText "SigBlk" v ++ ['\n']) = { m with blk := v } := by
  rw [mask_blk, List.append_assoc, maskLine, take8 (by decide), drop8 (by decide), if_pos rfl, str_hex]

theorem line_cgt (m : Masks) (v : BitVec 64) : maskLine m (maskText "SigCgt" v ++ ['\n']) = { m with cgt := v } := by
  rw [mask_cgt, List.append_assoc, maskLine, take8 (by decide), drop8 (by decide), if_neg (by decide), if_pos rfl, str_hex]

theorem line_ign (m : Masks) (v : BitVec 64) : maskLine m (maskText "SigIgn" v ++ ['\n']) = { m with ign := v } := by
  rw [mask_ign, List.append_assoc, maskLine, take8 (by decide), drop8 (by decide), if_neg (by decide), if_neg (by decide), if_pos rfl, str_hex]

theorem tag_infix {tag l p : Text} (hn : '\n' ∉ tag) (ht : tag ≠ []) (hp : p <:+: l ++ ['\n']) (h : p.take 8 = tag) : tag <:+: l := by
  have h1 : tag <:+: l ++ ['\n'] := by
    rw [← h]
    exact (List.take_prefix 8 p).isInfix.trans hp
  obtain ⟨a, b, hab⟩ := h1
  rcases List.eq_nil_or_concat b with rfl | ⟨b', x, rfl⟩
  · rw [List.append_nil] at hab
    rcases List.eq_nil_or_concat tag with rfl | ⟨t', x, rfl⟩
    · exact absurd rfl ht
    · rw [List.concat_eq_append, ← List.append_assoc] at hab
      have := (List.append_inj' hab rfl).2
      injection this with this
      exact absurd (by rw [this]; simp) hn
  · rw [List.concat_eq_append, ← List.append_assoc] at hab
    exact ⟨a, b', (List.append_inj' hab rfl).1⟩

theorem other_line {l p : Text} (m : Masks) (h : ¬("SigBlk:\t".toList <:+: l) ∧ ¬("SigCgt:\t".toList <:+: l) ∧ ¬("SigIgn:\t".toList <:+: l)) (hp : p <:+: l ++ ['\n']) : maskLine m p = m := by
  unfold maskLine
  have h1 : ¬(tagBlk <:+: l) := h.1
  have h2 : ¬(tagCgt <:+: l) := h.2.1
  have h3 : ¬(tagIgn <:+: l) := h.2.2
  rw [if_neg (fun k => h1 (tag_infix (by decide) (by decide) hp k)), if_neg (fun k => h2 (tag_infix (by decide) (by decide) hp k)),
    if_neg (fun k => h3 (tag_infix (by decide) (by decide) hp k))]

theorem fold_other {l : Text} (h : ¬("SigBlk:\t".toList <:+: l) ∧ ¬("SigCgt:\t".toList <:+: l) ∧ ¬("SigIgn:\t".toList <:+: l)) : ∀ (ps : List Text) (m : Masks),
    (∀ p ∈ ps, p <:+: l ++ ['\n']) → ps.foldl maskLine m = m
  | [], _, _ => rfl
  | p :: ps, m, hp => by
    rw [List.foldl_cons, other_line m h (hp p (.head _))]
    exact fold_other h ps m (fun q hq => hp q (.tail _ hq))

theorem infix_flatten {p : Text} {ps : List Text} (h : p ∈ ps) : p <:+: ps.flatten := by
  obtain ⟨a, b, rfl⟩ := List.append_of_mem h
  exact ⟨a.flatten, b.flatten, by simp⟩

theorem mask_short {name : String} (hn : name.toList.length = 6) (v : BitVec 64) : (maskText name v).length = 24 := by
  unfold maskText
  simp only [List.length_append, List.length_cons, hn, hex_length]

theorem masks_lines (blk cgt ign : BitVec 64) : ∀ (ls : List Text) (m : Masks), (∀ l ∈ ls, '\n' ∉ l ∧ (l = maskText "SigBlk" blk ∨ l = maskText "SigCgt" cgt ∨ l = maskText "SigIgn" ign ∨
      ¬("SigBlk:\t".toList <:+: l) ∧ ¬("SigCgt:\t".toList <:+: l) ∧ ¬("SigIgn:\t".toList <:+: l))) →
    (maskText "SigBlk" blk ∈ ls ∨ m.blk = blk) → (maskText "SigCgt" cgt ∈ ls ∨ m.cgt = cgt) → (maskText "SigIgn" ign ∈ ls ∨ m.ign = ign) →
    (getLines (pathMax - 1) [] (ls.flatMap (· ++ ['\n']))).foldl maskLine m = ⟨blk, cgt, ign⟩
  | [], m, _, h1, h2, h3 => by
    rcases h1 with h1 | h1
    · cases h1
    rcases h2 with h2 | h2
    · cases h2
    rcases h3 with h3 | h3
    · cases h3
    rw [List.flatMap_nil, getLines, if_pos rfl, List.foldl_nil, ← h1, ← h2, ← h3]
  | l :: ls, m, hl, h1, h2, h3 => by
    obtain ⟨hnl, hcase⟩ := hl l (.head _)
    have hrest := fun x hx => hl x (.tail _ hx)
    rw [List.flatMap_cons, List.append_assoc]
    obtain ⟨ps, e1, e2, e3⟩ := get_lines hnl (ls.flatMap (· ++ ['\n'])) (pathMax - 1) []
    rw [show [('\n' : Char)] ++ ls.flatMap (· ++ ['\n']) = '\n' :: ls.flatMap (· ++ ['\n']) from rfl, e1, List.foldl_append]
    have short : ∀ {name : String} {v : BitVec 64}, name.toList.length = 6 → l = maskText name v → ps = [maskText name v ++ ['\n']] := by
      intro name v hn hv
      have := e3 (by rw [hv, mask_short hn v]; decide)
      rw [this, hv]; rfl
    have pass : ∀ {t : Text} {q : Prop}, t ∈ l :: ls ∨ q → t ≠ l → t ∈ ls ∨ q := by
      rintro t q (h | h) hne
      · rcases List.mem_cons.1 h with h | h
        · exact absurd h hne
        · exact .inl h
      · exact .inr h
    rcases hcase with hb | hc | hi | ho
    · rw [short (by decide) hb, List.foldl_cons, List.foldl_nil, line_blk]
      refine masks_lines blk cgt ign ls _ hrest (.inr rfl) (pass h2 ?_) (pass h3 ?_)
      · rw [hb, mask_blk, mask_cgt]; exact fun k => absurd (List.append_inj k rfl).1 (by decide)
      · rw [hb, mask_blk, mask_ign]; exact fun k => absurd (List.append_inj k rfl).1 (by decide)
    · rw [short (by decide) hc, List.foldl_cons, List.foldl_nil, line_cgt]
      refine masks_lines blk cgt ign ls _ hrest (pass h1 ?_) (.inr rfl) (pass h3 ?_)
      · rw [hc, mask_blk, mask_cgt]; exact fun k => absurd (List.append_inj k rfl).1 (by decide)
      · rw [hc, mask_cgt, mask_ign]; exact fun k => absurd (List.append_inj k rfl).1 (by decide)
    · rw [short (by decide) hi, List.foldl_cons, List.foldl_nil, line_ign]
      refine masks_lines blk cgt ign ls _ hrest (pass h1 ?_) (pass h2 ?_) (.inr rfl)
      · rw [hi, mask_blk, mask_ign]; exact fun k => absurd (List.append_inj k rfl).1 (by decide)
      · rw [hi, mask_cgt, mask_ign]; exact fun k => absurd (List.append_inj k rfl).1 (by decide)
    · rw [fold_other ho ps m (fun p hp => by
        have := infix_flatten hp
        rw [e2] at this
        exact this)]
      refine masks_lines blk cgt ign ls _ hrest (pass h1 ?_) (pass h2 ?_) (pass h3 ?_)
      · exact fun k => ho.1 (by rw [← k, mask_blk]; exact (List.prefix_append _ _).isInfix)
      · exact fun k => ho.2.1 (by rw [← k, mask_cgt]; exact (List.prefix_append _ _).isInfix)
      · exact fun k => ho.2.2 (by rw [← k, mask_ign]; exact (List.prefix_append _ _).isInfix)

theorem masks_file {blk cgt ign : BitVec 64} {text : Text} (h : StatusFile blk cgt ign text) : masks text = ⟨blk, cgt, ign⟩ := by
  obtain ⟨ls, rfl, h1, h2, h3, h4⟩ := h
  exact masks_lines blk cgt ign ls _ h4 (.inl h1) (.inl h2) (.inl h3)

/-! ### Signals -/

theorem sig_bit {sig : Nat} (h1 : 1 ≤ sig) (h2 : sig ≤ 31) : sigBit sig = some (BitVec.twoPow 64 (sig - 1)) := by
  have key : ∀ k, k < 31 → (1#32 <<< k).signExtend 64 = BitVec.twoPow 64 k := by decide
  unfold sigBit
  rw [if_pos ⟨h1, by omega⟩, key (sig - 1) (by omega)]

theorem goes_on {sig : Nat} (h1 : 1 ≤ sig) (h2 : sig ≤ 31) (blk cgt ign : BitVec 64) : BitVec.twoPow 64 (sig - 1) &&& handled ⟨blk, cgt, ign⟩ = 0 ↔ ¬GoesOn sig blk cgt ign := by
  have h5 : (1#64 <<< (sigTrap - 1)).getLsbD (sig - 1) = decide (sig = 5) := by
    have key : ∀ k, k < 31 → (1#64 <<< (sigTrap - 1)).getLsbD k = decide (k + 1 = 5) := by decide
    rw [key (sig - 1) (by omega)]
    congr 1
    apply propext
    omega
  have hb : (handled ⟨blk, cgt, ign⟩).getLsbD (sig - 1) = true ↔ GoesOn sig blk cgt ign := by
    unfold handled GoesOn InMask
    simp only [BitVec.getLsbD_or, h5, Bool.or_eq_true, decide_eq_true_eq, or_assoc]
  rw [BitVec.and_comm, BitVec.and_twoPow]
  constructor
  · intro h k
    rw [if_pos (hb.2 k)] at h
    have := congrArg (fun x => BitVec.getLsbD x (sig - 1)) h
    simp only [BitVec.getLsbD_twoPow] at this
    simp at this
    omega
  · intro h
    rw [if_neg (fun k => h (hb.1 k))]
    rfl

/-- C88. A child that will go on after a signal is continued, with the signal unless it is a stop or a trap. -/
theorem C88_continued {traces : Bool} {w : Wait} {sig : Nat} (h : Passes w sig) (rest : List Wait) :
    parentLoop traces (w :: rest) = (.cont (delivered sig) :: (parentLoop traces rest).1, (parentLoop traces rest).2) := by
  obtain ⟨blk, cgt, ign, text, rfl, hs, h1, h2, h3⟩ := h
  rw [parentLoop, sig_bit h1 h2, masks_file hs]
  simp only
  rw [if_neg (fun k => (goes_on h1 h2 blk cgt ign).1 k h3)]
  rfl

/-- C88. A child that has got a signal it does nothing about is shown and killed. -/
theorem C88_shown {w : Wait} {sig : Nat} (h : Dies w sig) (rest : List Wait) :
    parentLoop true (w :: rest) = (.trace :: .kill :: (parentLoop true rest).1, (parentLoop true rest).2) := by
  obtain ⟨blk, cgt, ign, text, rfl, hs, h1, h2, h3⟩ := h
  rw [parentLoop, sig_bit h1 h2, masks_file hs]
  simp only
  rw [if_pos ((goes_on h1 h2 blk cgt ign).2 h3)]
  rfl

theorem continued_all {traces : Bool} : ∀ (ws : List Wait) (sigs : List Nat) (rest : List Wait), ws.length = sigs.length → (∀ (i : Nat) (w : Wait) (s : Nat), ws[i]? = some w → sigs[i]? = some s → Passes w s) →
    parentLoop traces (ws ++ rest) = (sigs.map (fun s => .cont (delivered s)) ++ (parentLoop traces rest).1, (parentLoop traces rest).2)
  | [], [], _, _, _ => rfl
  | [], _ :: _, _, hl, _ => by simp at hl
  | _ :: _, [], _, hl, _ => by simp at hl
  | w :: ws, s :: sigs, rest, hl, h => by
    rw [List.cons_append, C88_continued (h 0 w s rfl rfl), continued_all ws sigs rest (by simpa using hl) (fun i w s hw hs => h (i + 1) w s hw hs)]
    rfl

/-- C88. A child gets all signals it will go on after; at the first it does nothing about, its stacks are shown, once, and it is killed. -/
theorem C88_killed (ws : List Wait) (sigs : List Nat) (hl : ws.length = sigs.length) (h : ∀ (i : Nat) (w : Wait) (s : Nat), ws[i]? = some w → sigs[i]? = some s → Passes w s)
    {w : Wait} {sig : Nat} (hw : Dies w sig) (rest : List Wait) :
    parentLoop true (ws ++ w :: .ended :: rest) = (sigs.map (fun s => .cont (delivered s)) ++ [.trace, .kill], .returned 0) := by
  rw [continued_all ws sigs _ hl h, C88_shown hw]
  rfl

/-- C88. The stacks of a child that ends by itself are not shown. -/
theorem C88_ends (traces : Bool) (ws : List Wait) (sigs : List Nat) (hl : ws.length = sigs.length) (h : ∀ (i : Nat) (w : Wait) (s : Nat), ws[i]? = some w → sigs[i]? = some s → Passes w s) (rest : List Wait) :
    parentLoop traces (ws ++ .ended :: rest) = (sigs.map (fun s => .cont (delivered s)), .returned 0) := by
  rw [continued_all ws sigs _ hl h]
  simp [parentLoop]

/-- C88, negation. A signal that the child does nothing about ends it even if by default it is ignored, or stops or continues a process: SIGCHLD, SIGCONT, SIGSTOP, SIGTSTP, SIGTTIN, SIGTTOU, SIGURG, SIGWINCH. -/
theorem C88_not_fatal {text : Text} (h : StatusFile 0 0 0 text) {sig : Nat} (hs : sig ∈ [17, 18, 19, 20, 21, 22, 23, 28]) :
    (parentLoop true [.stopped sig text true]).1 = [.trace, .kill] := by
  have hr : 1 ≤ sig ∧ sig ≤ 31 ∧ sig ≠ 5 := by
    simp only [List.mem_cons, List.not_mem_nil, or_false] at hs; omega
  rw [C88_shown ⟨0, 0, 0, text, rfl, h, hr.1, hr.2.1, ?_⟩]
  · rfl
  · rintro (h | h | h | h)
    · simp [InMask] at h
    · simp [InMask] at h
    · simp [InMask] at h
    · exact hr.2.2 h

/-- C88, negation. A real-time signal is undefined behaviour, whether the child handles it or not. -/
theorem C88_not_realtime (traces : Bool) {sig : Nat} (h : 32 < sig) (text : Text) (ok : Bool) (rest : List Wait) : parentLoop traces (.stopped sig text ok :: rest) = ([], .undef) := by
  rw [parentLoop, show sigBit sig = none by unfold sigBit; rw [if_neg (by omega)]]

/-- C88, negation. The status is 0 however the command ends. -/
theorem C88_not_status (traces : Bool) : ∀ (ws : List Wait) (c : Int), (parentLoop traces ws).2 = .returned c → c = 0
  | [], c, h => by cases h
  | .failed :: _, c, h => by cases h; rfl
  | .ended :: _, c, h => by cases h; rfl
  | .stopped sig text ok :: rest, c, h => by
    rw [parentLoop] at h
    have ih := C88_not_status traces rest c
    cases hb : sigBit sig with
    | none => rw [hb] at h; cases h
    | some b =>
      rw [hb] at h
      simp only at h
      split at h
      · split at h
        · cases h
        · split at h
          · exact ih h
          · cases h
      · split at h
        · exact ih h
        · cases h

/-- C88, negation. If the child is gone when it is to be continued or killed, pstack aborts. -/
theorem C88_not_gone {sig : Nat} (h1 : 1 ≤ sig) (h2 : sig ≤ 32) (text : Text) (rest : List Wait) : (parentLoop true (.stopped sig text false :: rest)).2 = .aborted := by
  have : ∃ b, sigBit sig = some b := ⟨_, by unfold sigBit; rw [if_pos ⟨h1, h2⟩]⟩
  obtain ⟨b, hb⟩ := this
  rw [parentLoop, hb]
  simp only
  split <;> rfl

/-! ### Examples -/

/-- A status file: SIGUSR1 (10) is caught, SIGPIPE (13) ignored. -/
def childStatus : Text := ["Name:\tcrash".toList, "SigPnd:\t0000000000000000".toList, maskText "SigBlk" 0#64, maskText "SigIgn" 0x1000#64, maskText "SigCgt" 0x200#64, "Seccomp:\t0".toList].flatMap (· ++ ['\n'])

/-- Whether it begins so somewhere. -/
def occurs (p : Text) : Text → Bool
  | [] => p.isPrefixOf []
  | c :: l => p.isPrefixOf (c :: l) || occurs p l

theorem no_infix {p l : Text} (h : occurs p l = false) : ¬(p <:+: l) := by
  rintro ⟨a, b, rfl⟩
  rw [List.append_assoc] at h
  have key : ∀ a : Text, occurs p (a ++ (p ++ b)) = true := by
    intro a
    induction a with
    | nil =>
      have hp : p.isPrefixOf (p ++ b) = true := List.isPrefixOf_iff_prefix.2 (List.prefix_append p b)
      rw [List.nil_append]
      generalize p ++ b = q at hp
      cases q with
      | nil => exact hp
      | cons c q => rw [occurs, hp]; rfl
    | cons c a ih => rw [List.cons_append, occurs, ih, Bool.or_true]
  rw [key a] at h
  cases h

theorem child_status : StatusFile 0 0x200 0x1000 childStatus := by
  refine ⟨_, rfl, by simp, by simp, by simp, ?_⟩
  have nl : ∀ (name : String) (v : BitVec 64), '\n' ∉ name.toList → '\n' ∉ maskText name v := by
    intro name v hn h
    unfold maskText at h
    rcases List.mem_append.1 h with h | h
    · exact hn h
    · rcases List.mem_cons.1 h with h | h
      · cases h
      · rcases List.mem_cons.1 h with h | h
        · cases h
        · exact (Spec.hexText_ok 16 v.toNat).not.2.2.2 h
  intro l hl
  simp only [List.mem_cons, List.not_mem_nil, or_false] at hl
  rcases hl with rfl | rfl | rfl | rfl | rfl | rfl
  · exact ⟨by decide, .inr (.inr (.inr ⟨no_infix (by decide +kernel), no_infix (by decide +kernel), no_infix (by decide +kernel)⟩))⟩
  · exact ⟨by decide, .inr (.inr (.inr ⟨no_infix (by decide +kernel), no_infix (by decide +kernel), no_infix (by decide +kernel)⟩))⟩
  · exact ⟨nl _ _ (by decide), .inl rfl⟩
  · exact ⟨nl _ _ (by decide), .inr (.inr (.inl rfl))⟩
  · exact ⟨nl _ _ (by decide), .inr (.inl rfl)⟩
  · exact ⟨by decide, .inr (.inr (.inr ⟨no_infix (by decide +kernel), no_infix (by decide +kernel), no_infix (by decide +kernel)⟩))⟩

/-- A child that has been started, gets SIGUSR1, which it catches, and then SIGSEGV, which it does not. -/
theorem C88_example : parentLoop true [.stopped 5 childStatus true, .stopped 10 childStatus true, .stopped 11 childStatus true, .ended] =
    ([.cont 0, .cont 10, .trace, .kill], .returned 0) := by
  have p1 : Passes (.stopped 5 childStatus true) 5 := ⟨0, 0x200, 0x1000, _, rfl, child_status, by omega, by omega, .inr (.inr (.inr rfl))⟩
  have p2 : Passes (.stopped 10 childStatus true) 10 := ⟨0, 0x200, 0x1000, _, rfl, child_status, by omega, by omega, .inr (.inl (by unfold InMask; decide))⟩
  have d : Dies (.stopped 11 childStatus true) 11 := ⟨0, 0x200, 0x1000, _, rfl, child_status, by omega, by omega, by
    rintro (h | h | h | h) <;> revert h <;> (try unfold InMask) <;> decide⟩
  refine C88_killed [_, _] [5, 10] rfl ?_ d []
  intro i w s hw hs
  match i with
  | 0 => cases hw; cases hs; exact p1
  | 1 => cases hw; cases hs; exact p2
  | i + 2 => cases hw

/-- With three words the one in the middle is wrong. -/
theorem C88_example_words : splitArgs "ls /tmp".toList = ["ls".toList, "/tmp".toList] ∧ splitArgs "ls -l /tmp".toList = ["ls".toList, "-l /t".toList, "/tmp".toList] := by
  decide +kernel

end Pstack.Props
