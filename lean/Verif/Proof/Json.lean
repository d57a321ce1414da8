import Verif.Model.Json
import Verif.Spec.Json
/-
Lemmas on JSON printing and parsing.
-/
namespace Pstack.Json
open Pstack.Spec

theorem hexVal_digit : ∀ n, n < 16 → hexVal (digit n) = some n := by decide
theorem isDigit_digit : ∀ n, n < 10 → isDigit (digit n) = true := by decide
theorem digit_val : ∀ n, n < 10 → (digit n).toNat - 48 = n := by decide

theorem digits_lt (b n : Nat) (h : n < b) : digits b n = [digit n] := by
  rw [digits, dif_pos (Or.inl h)]

theorem digits_ge (b n : Nat) (hb : 2 ≤ b) (h : b ≤ n) : digits b n = digits b (n / b) ++ [digit (n % b)] := by
  rw [digits, dif_neg (by omega)]

/-- Four hexadecimal digits. -/
theorem pad4 (v : Nat) (h : v < 65536) :
    pad 4 (digits 16 v) = [digit (v / 4096), digit (v / 256 % 16), digit (v / 16 % 16), digit (v % 16)] := by
  by_cases h1 : v < 16
  · rw [digits_lt 16 v h1]
    have e1 : v / 4096 = 0 := by omega
    have e2 : v / 256 % 16 = 0 := by omega
    have e3 : v / 16 % 16 = 0 := by omega
    have e4 : v % 16 = v := by omega
    rw [e1, e2, e3, e4]; rfl
  by_cases h2 : v < 256
  · rw [digits_ge 16 v (by omega) (by omega), digits_lt 16 (v / 16) (by omega)]
    have e1 : v / 4096 = 0 := by omega
    have e2 : v / 256 % 16 = 0 := by omega
    have e3 : v / 16 % 16 = v / 16 := by omega
    rw [e1, e2, e3]; rfl
  by_cases h3 : v < 4096
  · rw [digits_ge 16 v (by omega) (by omega), digits_ge 16 (v / 16) (by omega) (by omega), digits_lt 16 (v / 16 / 16) (by omega)]
    have e1 : v / 4096 = 0 := by omega
    have e2 : v / 256 % 16 = v / 16 / 16 := by omega
    rw [e1, e2]; rfl
  · rw [digits_ge 16 v (by omega) (by omega), digits_ge 16 (v / 16) (by omega) (by omega), digits_ge 16 (v / 16 / 16) (by omega) (by omega),
      digits_lt 16 (v / 16 / 16 / 16) (by omega)]
    have e1 : v / 4096 = v / 16 / 16 / 16 := by omega
    have e2 : v / 256 % 16 = v / 16 / 16 % 16 := by omega
    rw [e1, e2]; rfl

/-- Text written for a code point, when it is one of those the code handles. -/
def charText (c : Nat) : List Char :=
  if c = 8 then "\\b".toList else if c = 12 then "\\f".toList else if c = 10 then "\\n".toList
  else if c = 34 then "\\\"".toList else if c = 92 then "\\\\".toList else if c = 13 then "\\r".toList else if c = 9 then "\\t".toList
  else if c < 128 then [Char.ofNat c]
  else '\\' :: 'u' :: pad 4 (digits 16 c)

theorem escapeOne_ascii (c : Byte) (s : List Byte) (h1 : c.toNat < 128)
    (h2 : 32 ≤ c.toNat ∨ c.toNat = 8 ∨ c.toNat = 9 ∨ c.toNat = 10 ∨ c.toNat = 12 ∨ c.toNat = 13) :
    escapeOne c s = .ok (charText c.toNat, s) := by
  unfold escapeOne charText
  generalize c.toNat = n at *
  by_cases e1 : n = 8
  · subst e1; rfl
  by_cases e2 : n = 12
  · subst e2; rfl
  by_cases e3 : n = 10
  · subst e3; rfl
  by_cases e4 : n = 34
  · subst e4; rfl
  by_cases e5 : n = 92
  · subst e5; rfl
  by_cases e6 : n = 13
  · subst e6; rfl
  by_cases e7 : n = 9
  · subst e7; rfl
  rw [if_neg e1, if_neg e2, if_neg e3, if_neg e4, if_neg e5, if_neg e6, if_neg e7, if_pos h1]
  split <;> try omega
  rw [if_neg (by omega), if_neg (by simp [Nat.testBit_lt_two_pow (show n < 2 ^ 7 by omega)])]

theorem escapeOne_multi (c : Byte) (s : List Byte) (h1 : 128 ≤ c.toNat) :
    escapeOne c s = (continuation ((leadingOnes 8 c.toNat 0).2 - 1) (leadingOnes 8 c.toNat 0).1 s >>= fun r =>
      .ok ('\\' :: 'u' :: pad 4 (digits 16 r.1), r.2)) := by
  have hc := c.isLt
  unfold escapeOne
  generalize c.toNat = n at *
  split <;> try omega
  have hb : n.testBit 7 = true := by
    rw [Nat.testBit_eq_decide_div_mod_eq]; simp; omega
  rw [if_neg (by omega), if_pos hb]
  rfl

theorem lead2 : ∀ k, k < 32 → leadingOnes 8 (0xc0 + k) 0 = (k, 2) := by decide
theorem lead3 : ∀ k, k < 16 → leadingOnes 8 (0xe0 + k) 0 = (k, 3) := by decide
theorem lead4 : ∀ k, k < 8 → leadingOnes 8 (0xf0 + k) 0 = (k, 4) := by decide

theorem cont_step (n v k : Nat) (hk : k < 64) (s : List Byte) :
    continuation (n + 1) v (BitVec.ofNat 8 (0x80 + k) :: s) = continuation n (v * 64 + k) s := by
  have e : (BitVec.ofNat 8 (0x80 + k)).toNat = 0x80 + k := by rw [BitVec.toNat_ofNat]; omega
  rw [continuation, e, if_pos (by omega)]
  congr 1; omega

/-- A code point is written as the digits of its number, however many. -/
theorem escapeOne_utf8 (c : Nat) (hc : 0x80 ≤ c) (hc2 : c < 0x110000) (s : List Byte) :
    ∃ b bs, utf8 c = b :: bs ∧ escapeOne b (bs ++ s) = .ok ('\\' :: 'u' :: pad 4 (digits 16 c), s) := by
  unfold utf8
  rw [if_neg (by omega)]
  by_cases h1 : c < 0x800
  · rw [if_pos h1]
    have e : (BitVec.ofNat 8 (0xc0 + c / 64)).toNat = 0xc0 + c / 64 := by rw [BitVec.toNat_ofNat]; omega
    refine ⟨_, _, rfl, ?_⟩
    rw [escapeOne_multi _ _ (by omega), e, lead2 _ (by omega)]
    simp only [Nat.reduceSub, List.cons_append, List.nil_append]
    rw [cont_step _ _ _ (by omega), show c / 64 * 64 + c % 64 = c by omega]
    rfl
  rw [if_neg h1]
  by_cases h2 : c < 0x10000
  · rw [if_pos h2]
    have e : (BitVec.ofNat 8 (0xe0 + c / 4096)).toNat = 0xe0 + c / 4096 := by rw [BitVec.toNat_ofNat]; omega
    refine ⟨_, _, rfl, ?_⟩
    rw [escapeOne_multi _ _ (by omega), e, lead3 _ (by omega)]
    simp only [Nat.reduceSub, List.cons_append, List.nil_append]
    rw [cont_step _ _ _ (by omega), cont_step _ _ _ (by omega), show (c / 4096 * 64 + c / 64 % 64) * 64 + c % 64 = c by omega]
    rfl
  rw [if_neg h2]
  have e : (BitVec.ofNat 8 (0xf0 + c / 262144)).toNat = 0xf0 + c / 262144 := by rw [BitVec.toNat_ofNat]; omega
  refine ⟨_, _, rfl, ?_⟩
  rw [escapeOne_multi _ _ (by omega), e, lead4 _ (by omega)]
  simp only [Nat.reduceSub, List.cons_append, List.nil_append]
  rw [cont_step _ _ _ (by omega), cont_step _ _ _ (by omega), cont_step _ _ _ (by omega),
    show ((c / 262144 * 64 + c / 4096 % 64) * 64 + c / 64 % 64) * 64 + c % 64 = c by omega]
  rfl

theorem escape_cons (b : Byte) (s s' : List Byte) (t : List Char) (h : escapeOne b s = .ok (t, s')) :
    escape (b :: s) = (escape s' >>= fun ts => .ok (t ++ ts)) := by
  rw [escape]
  split
  · rename_i t2 s2 h2
    rw [h] at h2
    cases h2
    cases escape s' <;> rfl
  all_goals (rename_i h2; rw [h] at h2; cases h2)

/-- The code points whose escapes JSON understands: everything up to U+FFFF but the control characters with no short form. -/
def Plain (c : Nat) : Prop := IsScalar c ∧ c < 0x10000 ∧ (32 ≤ c ∨ c = 8 ∨ c = 9 ∨ c = 10 ∨ c = 12 ∨ c = 13)

theorem escape_plain : ∀ (cs : List Nat), (∀ c ∈ cs, Plain c) → escape (utf8s cs) = .ok ((cs.map charText).flatten)
  | [], _ => by rw [show utf8s [] = [] from rfl, escape]; rfl
  | c :: cs, h => by
    have ih := escape_plain cs (fun x hx => h x (List.mem_cons_of_mem _ hx))
    obtain ⟨h0, h1, h2⟩ := h c List.mem_cons_self
    rw [show utf8s (c :: cs) = utf8 c ++ utf8s cs by simp [utf8s]]
    by_cases h3 : c < 128
    · have e : (BitVec.ofNat 8 c).toNat = c := by rw [BitVec.toNat_ofNat]; omega
      rw [show utf8 c = [BitVec.ofNat 8 c] by rw [utf8, if_pos h3]]
      have := escapeOne_ascii (BitVec.ofNat 8 c) (utf8s cs) (by omega) (by omega)
      rw [List.singleton_append, escape_cons _ _ _ _ this, ih, e]
      rfl
    · obtain ⟨b, bs, e1, e2⟩ := escapeOne_utf8 c (by omega) (by omega) (utf8s cs)
      rw [e1, List.cons_append, escape_cons _ _ _ _ e2, ih]
      simp only [List.map_cons, List.flatten_cons]
      rw [show charText c = '\\' :: 'u' :: pad 4 (digits 16 c) by
        unfold charText
        rw [if_neg (by omega), if_neg (by omega), if_neg (by omega), if_neg (by omega), if_neg (by omega), if_neg (by omega),
          if_neg (by omega), if_neg h3]]
      rfl

/-- Reading one code point back. -/
theorem parse_char (c : Nat) (h : Plain c) (n : Nat) (s : List Char) :
    parseChars (n + 1) (charText c ++ s) = (parseChars n s).map fun r => (utf16 c ++ r.1, r.2) := by
  obtain ⟨h0, h1, h2⟩ := h
  have hu : utf16 c = [c] := by rw [utf16, if_pos h1]
  rw [hu]
  have bind_map : ∀ (o : Option (List Nat × List Char)) (u : List Nat), (do let (us, s) ← o; return (u ++ us, s)) = o.map fun r => (u ++ r.1, r.2) := by
    intro o u; cases o <;> rfl
  have short : ∀ (e : Char) (u : Nat), parseEscape (e :: s) = some ([u], s) →
      parseChars (n + 1) (('\\' :: e :: []) ++ s) = (parseChars n s).map fun r => ([u] ++ r.1, r.2) := by
    intro e u he
    rw [List.cons_append, parseChars, if_neg (by decide), if_pos rfl]
    simp only [List.cons_append, List.nil_append, he]
    exact bind_map _ _
  unfold charText
  split; · rename_i e; subst e; exact short 'b' 8 rfl
  split; · rename_i e; subst e; exact short 'f' 12 rfl
  split; · rename_i e; subst e; exact short 'n' 10 rfl
  split; · rename_i e; subst e; exact short '"' 34 rfl
  split; · rename_i e; subst e; exact short '\\' 92 rfl
  split; · rename_i e; subst e; exact short 'r' 13 rfl
  split; · rename_i e; subst e; exact short 't' 9 rfl
  split
  · rename_i e1 e2 e3 e4 e5 e6 e7 e8
    have ht : (Char.ofNat c).toNat = c := by
      rw [Char.ofNat, dif_pos (Or.inl (by omega))]; rfl
    rw [List.singleton_append, parseChars, if_neg (by intro hh; rw [hh] at ht; exact e4 (by simpa using ht.symm)),
      if_neg (by intro hh; rw [hh] at ht; exact e5 (by simpa using ht.symm)), if_neg (by omega), ht, hu]
    exact bind_map _ _
  · rw [pad4 c h1]
    rw [List.cons_append, parseChars, if_neg (by decide), if_pos rfl]
    have : parseEscape ('u' :: [digit (c / 4096), digit (c / 256 % 16), digit (c / 16 % 16), digit (c % 16)] ++ s) = some ([c], s) := by
      simp only [List.cons_append, List.nil_append, parseEscape, hexVal_digit _ (show c / 4096 < 16 by omega), hexVal_digit _ (show c / 256 % 16 < 16 by omega),
        hexVal_digit _ (show c / 16 % 16 < 16 by omega), hexVal_digit _ (show c % 16 < 16 by omega)]
      show some ([4096 * (c / 4096) + 256 * (c / 256 % 16) + 16 * (c / 16 % 16) + c % 16], s) = _
      rw [show 4096 * (c / 4096) + 256 * (c / 256 % 16) + 16 * (c / 16 % 16) + c % 16 = c by omega]
    rw [this]
    exact bind_map _ _

theorem parse_chars : ∀ (cs : List Nat), (∀ c ∈ cs, Plain c) → ∀ (n : Nat) (rest : List Char), cs.length < n →
    parseChars n ((cs.map charText).flatten ++ '"' :: rest) = some (utf16s cs, rest)
  | [], _, n, rest, hn => by
    obtain ⟨k, rfl⟩ : ∃ k, n = k + 1 := ⟨n - 1, by simp at hn; omega⟩
    rfl
  | c :: cs, h, n, rest, hn => by
    obtain ⟨k, rfl⟩ : ∃ k, n = k + 1 := ⟨n - 1, by simp at hn; omega⟩
    have ih := parse_chars cs (fun x hx => h x (List.mem_cons_of_mem _ hx)) k rest (by simp at hn; omega)
    simp only [List.map_cons, List.flatten_cons, List.append_assoc]
    rw [parse_char c (h c List.mem_cons_self), ih]
    simp [utf16s]

theorem charText_pos (c : Nat) : 0 < (charText c).length := by
  unfold charText
  repeat' split
  all_goals simp

theorem text_len : ∀ cs : List Nat, cs.length ≤ ((cs.map charText).flatten).length
  | [] => by simp
  | c :: cs => by
    have := text_len cs
    have := charText_pos c
    simp at *
    omega

/-- The text of a string. -/
def strText (cs : List Nat) : List Char := '"' :: (cs.map charText).flatten ++ ['"']

theorem printStr_plain (cs : List Nat) (h : ∀ c ∈ cs, Plain c) : printStr (utf8s cs) = .ok (strText cs) := by
  unfold printStr
  rw [escape_plain cs h]
  rfl

theorem parse_string (cs : List Nat) (h : ∀ c ∈ cs, Plain c) (rest : List Char) : parseString (strText cs ++ rest) = some (utf16s cs, rest) := by
  unfold strText
  simp only [List.cons_append, List.append_assoc, List.nil_append, parseString]
  apply parse_chars cs h
  have := text_len cs
  simp at this ⊢
  omega

theorem parseNat_digits : ∀ (n acc : Nat) (rest : List Char), ∃ k, parseNat acc (digits 10 n ++ rest) = parseNat (10 ^ k * acc + n) rest := by
  intro n
  induction n using Nat.strongRecOn with
  | ind n ih =>
    intro acc rest
    by_cases h : n < 10
    · refine ⟨1, ?_⟩
      rw [digits_lt 10 n h, List.singleton_append, parseNat, if_pos (isDigit_digit n h), digit_val n h]
    · obtain ⟨k, hk⟩ := ih (n / 10) (by omega) acc (digit (n % 10) :: rest)
      refine ⟨k + 1, ?_⟩
      rw [digits_ge 10 n (by omega) (by omega), List.append_assoc, List.singleton_append, hk, parseNat,
        if_pos (isDigit_digit _ (by omega)), digit_val _ (by omega)]
      congr 1
      rw [Nat.pow_succ]
      generalize 10 ^ k = p
      have : p * 10 * acc = 10 * (p * acc) := by rw [Nat.mul_comm p 10, Nat.mul_assoc]
      omega

theorem digits_head (n : Nat) (hn : 0 < n) : ∃ d ds, digits 10 n = d :: ds ∧ isDigit d = true ∧ d ≠ '0' := by
  induction n using Nat.strongRecOn with
  | ind n ih =>
    by_cases h : n < 10
    · refine ⟨digit n, [], digits_lt 10 n h, isDigit_digit n h, ?_⟩
      revert n
      intro n _ hn h
      have : ∀ m, m < 10 → 0 < m → digit m ≠ '0' := by decide
      exact this n h hn
    · obtain ⟨d, ds, h1, h2, h3⟩ := ih (n / 10) (by omega) (by omega)
      exact ⟨d, ds ++ [digit (n % 10)], by rw [digits_ge 10 n (by omega) (by omega), h1]; rfl, h2, h3⟩

/-- What may follow a number. -/
def Ends (rest : List Char) : Prop := ∀ c, rest.head? = some c → ¬ isDigit c ∧ c ≠ '.' ∧ c ≠ 'e' ∧ c ≠ 'E'

theorem parseNat_end (acc : Nat) (rest : List Char) (h : Ends rest) : parseNat acc rest = (acc, rest) := by
  cases rest with
  | nil => rfl
  | cons c s => rw [parseNat, if_neg (h c rfl).1]

theorem parse_number (n : Nat) (rest : List Char) (h : Ends rest) : parseNumber (digits 10 n ++ rest) = some (n, rest) := by
  by_cases hn : n = 0
  · subst hn
    rw [digits_lt 10 0 (by decide)]
    show parseNumber ('0' :: rest) = _
    unfold parseNumber
    cases rest with
    | nil => rfl
    | cons c s =>
      obtain ⟨a, b, c', d⟩ := h c rfl
      simp [a, b, c', d]
  · obtain ⟨d, ds, h1, h2, h3⟩ := digits_head n (by omega)
    obtain ⟨k, hk⟩ := parseNat_digits n 0 rest
    rw [h1] at hk ⊢
    rw [Nat.mul_zero, Nat.zero_add, parseNat_end n rest h] at hk
    unfold parseNumber
    simp only [List.cons_append] at hk ⊢
    rw [if_pos h2, hk]
    cases rest with
    | nil => rfl
    | cons c s =>
      obtain ⟨a, b, c', d⟩ := h c rfl
      simp [b, c', d]

end Pstack.Json
