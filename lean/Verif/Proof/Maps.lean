import Verif.Spec.Maps
/-
Proofs about the parser of /proc/<pid>/maps.
-/
namespace Pstack.Spec
open Pstack.Maps

/-! ### Tokens -/

theorem dropWhile_head {t : Text} (h : t.head? ≠ some ' ') : t.dropWhile (· = ' ') = t := by
  cases t with
  | nil => rfl
  | cons c l =>
    have : c ≠ ' ' := fun e => h (by rw [e]; rfl)
    simp [this]

theorem takeWhile_head {t : Text} (h : t.head? ≠ some ' ') : t.takeWhile (· = ' ') = [] := by
  cases t with
  | nil => rfl
  | cons c l =>
    have : c ≠ ' ' := fun e => h (by rw [e]; rfl)
    simp [this]

theorem takeWhile_sep {t : Text} {sep : Char} (h : sep ∉ t) (r : Text) : (t ++ sep :: r).takeWhile (· ≠ sep) = t := by
  induction t with
  | nil => simp
  | cons c t ih =>
    have h1 : c ≠ sep := fun e => h (by rw [e]; exact List.mem_cons_self)
    rw [List.cons_append, List.takeWhile_cons, if_pos (by simp [h1]), ih (fun hm => h (List.mem_cons_of_mem _ hm))]

theorem dropWhile_sep {t : Text} {sep : Char} (h : sep ∉ t) (r : Text) : (t ++ sep :: r).dropWhile (· ≠ sep) = sep :: r := by
  induction t with
  | nil => simp
  | cons c t ih =>
    have h1 : c ≠ sep := fun e => h (by rw [e]; exact List.mem_cons_self)
    rw [List.cons_append, List.dropWhile_cons, if_pos (by simp [h1]), ih (fun hm => h (List.mem_cons_of_mem _ hm))]

/-- A token, up to its separator. -/
theorem nextTok_sep {t : Text} {sep : Char} (ht : t ≠ []) (h0 : t.head? ≠ some ' ') (h : sep ∉ t) (r : Text) : nextTok (t ++ sep :: r) sep = (t, r) := by
  have h1 : (t ++ sep :: r).head? ≠ some ' ' := by
    cases t with
    | nil => exact absurd rfl ht
    | cons c l => exact h0
  unfold nextTok
  rw [dropWhile_head h1, takeWhile_head h1]
  simp only
  rw [if_neg (by simp), if_pos (by simp), takeWhile_sep h, dropWhile_sep h]
  rfl

/-! ### Numbers -/

theorem digit_cases : ∀ d, d < 16 → (('0' ≤ digitChar d ∧ digitChar d ≤ '9') ∧ (digitChar d).toNat - 48 = d) ∨
    (¬('0' ≤ digitChar d ∧ digitChar d ≤ '9') ∧ ('a' ≤ digitChar d ∧ digitChar d ≤ 'f') ∧ (digitChar d).toNat - 97 + 10 = d) := by decide

theorem digit_other : ∀ d, d < 16 → digitChar d ≠ ' ' ∧ digitChar d ≠ '-' ∧ digitChar d ≠ ':' ∧ digitChar d ≠ '\n' ∧ isUpper (digitChar d) = false := by decide

theorem hexLoop_digit (v : BitVec 64) {d : Nat} (hd : d < 16) (l : Text) : hexLoop v (digitChar d :: l) = hexLoop (v * 16 + BitVec.ofNat 64 d) l := by
  rcases digit_cases d hd with ⟨h1, h2⟩ | ⟨h1, h2, h3⟩
  · rw [hexLoop, if_pos h1, h2]
  · rw [hexLoop, if_neg h1, if_pos h2, h3]

theorem hexLoop_append (l l' : Text) : ∀ v, hexLoop v (l ++ l') = (hexLoop v l).bind (fun v => hexLoop v l') := by
  induction l with
  | nil => intro v; rfl
  | cons c l ih =>
    intro v
    rw [List.cons_append, hexLoop, hexLoop]
    split
    · exact ih _
    · split
      · exact ih _
      · split
        · exact ih _
        · rfl

/-- A number in some base, read as if it were hexadecimal. -/
def readAs (base : Nat) (n : Nat) : Nat := if h : n < base ∨ base < 2 then n else 16 * readAs base (n / base) + n % base
termination_by n
decreasing_by exact Nat.div_lt_self (by omega) (by omega)

theorem readAs_16 (n : Nat) : readAs 16 n = n := by
  induction n using Nat.strongRecOn with
  | _ n ih =>
    rw [readAs]
    split
    · rfl
    · rw [ih (n / 16) (Nat.div_lt_self (by omega) (by omega))]; omega

theorem readAs_10 (n : Nat) : readAs 10 n = misread n := by
  induction n using Nat.strongRecOn with
  | _ n ih =>
    rw [readAs, misread]
    by_cases h : n < 10
    · rw [dif_pos (.inl h), dif_pos h]
    · rw [dif_neg (by omega), dif_neg h, ih (n / 10) (Nat.div_lt_self (by omega) (by omega))]

theorem hexLoop_digits {base : Nat} (hb : 2 ≤ base) (hb' : base ≤ 16) (n : Nat) : hexLoop 0 (digits base n) = .ok (BitVec.ofNat 64 (readAs base n)) := by
  induction n using Nat.strongRecOn with
  | _ n ih =>
    rw [digits, readAs]
    split
    · rw [hexLoop_digit _ (by omega), hexLoop]
      simp
    · rename_i h
      rw [hexLoop_append, ih (n / base) (Nat.div_lt_self (by omega) (by omega)), Res.bind, hexLoop_digit _ (by have := Nat.mod_lt n (show 0 < base by omega); omega), hexLoop]
      congr 1
      rw [BitVec.ofNat_add, BitVec.ofNat_mul, BitVec.mul_comm]
      rfl

theorem hexLoop_zeros (k : Nat) (l : Text) : hexLoop 0 (List.replicate k '0' ++ l) = hexLoop 0 l := by
  induction k with
  | zero => rfl
  | succ k ih =>
    rw [List.replicate_succ, List.cons_append]
    have h : hexLoop 0 ('0' :: (List.replicate k '0' ++ l)) = hexLoop 0 (List.replicate k '0' ++ l) := by
      have := hexLoop_digit 0 (d := 0) (by decide) (List.replicate k '0' ++ l)
      have e : digitChar 0 = '0' := by decide
      rw [e] at this
      rw [this]
      rfl
    rw [h, ih]

theorem hex2int_hex (w n : Nat) : hex2int (hexText w n) = .ok (BitVec.ofNat 64 n) := by
  unfold hex2int hexText padTo
  rw [hexLoop_zeros, hexLoop_digits (by omega) (by omega), readAs_16]

theorem hex2int_dec (n : Nat) : hex2int (digits 10 n) = .ok (BitVec.ofNat 64 (misread n)) := by
  unfold hex2int
  rw [hexLoop_digits (by omega) (by omega), readAs_10]

theorem mem_digits {base : Nat} (hb : 2 ≤ base) (hb' : base ≤ 16) (n : Nat) : ∀ c ∈ digits base n, ∃ d, d < 16 ∧ c = digitChar d := by
  induction n using Nat.strongRecOn with
  | _ n ih =>
    intro c hc
    rw [digits] at hc
    split at hc
    · exact ⟨n, by omega, by simpa using hc⟩
    · rcases List.mem_append.1 hc with h | h
      · exact ih (n / base) (Nat.div_lt_self (by omega) (by omega)) c h
      · exact ⟨n % base, by have := Nat.mod_lt n (show 0 < base by omega); omega, by simpa using h⟩

theorem digits_ne {base : Nat} (n : Nat) : digits base n ≠ [] := by
  rw [digits]
  split <;> simp

/-- What there is of digits. -/
def Digits (l : Text) : Prop := l ≠ [] ∧ ∀ c ∈ l, ∃ d, d < 16 ∧ c = digitChar d

theorem digits_ok {base : Nat} (hb : 2 ≤ base) (hb' : base ≤ 16) (n : Nat) : Digits (digits base n) := ⟨digits_ne n, mem_digits hb hb' n⟩

theorem hexText_ok (w n : Nat) : Digits (hexText w n) := by
  refine ⟨by simp [hexText, padTo, digits_ne], ?_⟩
  intro c hc
  rcases List.mem_append.1 hc with h | h
  · exact ⟨0, by decide, (List.mem_replicate.1 h).2⟩
  · exact mem_digits (by omega) (by omega) n c h

theorem Digits.not {l : Text} (h : Digits l) : ' ' ∉ l ∧ '-' ∉ l ∧ ':' ∉ l ∧ '\n' ∉ l := by
  refine ⟨fun hm => ?_, fun hm => ?_, fun hm => ?_, fun hm => ?_⟩
  all_goals
    obtain ⟨d, hd, he⟩ := h.2 _ hm
    have := digit_other d hd
    rw [← he] at this
    simp at this

theorem Digits.head {l : Text} (h : Digits l) : l.head? ≠ some ' ' := by
  intro he
  exact h.not.1 (List.mem_of_head? he)

/-! ### Lines -/

theorem permLoop_text (m : Mapping) : permLoop (fun _ => false) (permText m) = .ok m.perms := by
  obtain ⟨start, stop, r, w, x, s, offset, major, minor, inode, blanks, path, attrs, flags⟩ := m
  cases r <;> cases w <;> cases x <;> cases s <;>
    · refine congrArg Res.ok ?_
      funext p
      cases p <;> rfl

theorem permText_bools : ∀ r w x s : Bool, [if r then 'r' else '-', if w then 'w' else '-', if x then 'x' else '-', if s then 's' else 'p'] ≠ [] ∧
    [if r then 'r' else '-', if w then 'w' else '-', if x then 'x' else '-', if s then 's' else 'p'].head? ≠ some ' ' ∧
    ' ' ∉ [if r then 'r' else '-', if w then 'w' else '-', if x then 'x' else '-', if s then 's' else 'p'] ∧
    '\n' ∉ [if r then 'r' else '-', if w then 'w' else '-', if x then 'x' else '-', if s then 's' else 'p'] := by decide

theorem permText_ok (m : Mapping) : permText m ≠ [] ∧ (permText m).head? ≠ some ' ' ∧ ' ' ∉ permText m ∧ '\n' ∉ permText m := permText_bools m.read m.write m.exec m.shared

/-- The path of a mapping, as it is shown. -/
def Mapping.shown (m : Mapping) : Text := m.path.getD "<anon>".toList

theorem dropWhile_blanks (k : Nat) (l : Text) : (List.replicate k ' ' ++ l).dropWhile (· = ' ') = l.dropWhile (· = ' ') := by
  induction k with
  | zero => rfl
  | succ k ih => rw [List.replicate_succ, List.cons_append, List.dropWhile_cons, if_pos (by simp), ih]

theorem header_line {m : Mapping} (hm : m.Valid) : header m.line =
    .ok ⟨BitVec.ofNat 64 m.start, BitVec.ofNat 64 m.stop, 0, BitVec.ofNat 64 m.offset, (BitVec.ofNat 64 m.major).setWidth 32, (BitVec.ofNat 64 m.minor).setWidth 32,
      BitVec.ofNat 64 (misread m.inode), m.shown, m.perms, fun _ => false⟩ := by
  unfold header Mapping.line
  obtain ⟨k1, k2, k3, k4⟩ := permText_ok m
  have h1 := hexText_ok 8 m.start
  have h2 := hexText_ok 8 m.stop
  have h3 := hexText_ok 8 m.offset
  have h4 := hexText_ok 2 m.major
  have h5 := hexText_ok 2 m.minor
  have h6 := digits_ok (base := 10) (by omega) (by omega) m.inode
  simp only [List.append_assoc, List.cons_append]
  rw [nextTok_sep h1.1 h1.head h1.not.2.1]
  simp only
  rw [hex2int_hex, Res.bind_ok, nextTok_sep h2.1 h2.head h2.not.1]
  simp only
  rw [hex2int_hex, Res.bind_ok, nextTok_sep k1 k2 k3]
  simp only
  rw [permLoop_text, Res.bind_ok, nextTok_sep h3.1 h3.head h3.not.1]
  simp only
  rw [hex2int_hex, Res.bind_ok, nextTok_sep h4.1 h4.head h4.not.2.2.1]
  simp only
  rw [hex2int_hex, Res.bind_ok, nextTok_sep h5.1 h5.head h5.not.1]
  simp only
  rw [hex2int_hex, Res.bind_ok, nextTok_sep h6.1 h6.head h6.not.1]
  simp only
  rw [hex2int_dec, Res.bind_ok]
  have hp : (if m.pathText.dropWhile (· = ' ') = [] then "<anon>".toList
      else m.pathText.dropWhile (· = ' ')) = m.shown := by
    unfold Mapping.shown Mapping.pathText
    cases hpath : m.path with
    | none => rfl
    | some p =>
      obtain ⟨q1, q2, q3⟩ := hm.path p hpath
      simp only [dropWhile_blanks, dropWhile_head q2, if_neg q1, Option.getD_some]
  rw [hp]

/-- Flags, of which none is remembered twice. -/
theorem flagLoop_flags (fs : List Text) (hf : ∀ f ∈ fs, f ≠ [] ∧ ' ' ∉ f) : ∀ (set : Text → Bool) (n : Nat), fs.length < n → ∀ t,
    flagLoop set n (fs.flatMap (· ++ [' '])) t = (set t || (fs.contains t && flagNames.contains t)) := by
  induction fs with
  | nil =>
    intro set n hn t
    cases n with
    | zero => omega
    | succ n => simp [flagLoop, nextTok]
  | cons f fs ih =>
    intro set n hn t
    cases n with
    | zero => omega
    | succ n =>
      obtain ⟨h1, h2⟩ := hf f List.mem_cons_self
      have hh : f.head? ≠ some ' ' := fun e => h2 (List.mem_of_head? e)
      rw [List.flatMap_cons, List.append_assoc, List.singleton_append, flagLoop, nextTok_sep h1 hh h2]
      simp only
      rw [if_neg h1, ih (fun g hg => hf g (List.mem_cons_of_mem _ hg)) _ n (by rw [List.length_cons] at hn; omega)]
      by_cases ht : t = f
      · subst ht
        cases set t <;> cases flagNames.contains t <;> simp
      · simp [ht]

theorem length_flags (fs : List Text) : fs.length ≤ (fs.flatMap (· ++ [' '])).length := by
  induction fs with
  | nil => exact Nat.le_refl _
  | cons a fs ih => rw [List.flatMap_cons, List.length_append, List.length_append, List.length_cons, List.length_singleton]; omega

theorem flagLine_ok {l : List Text} (hl : ∀ f ∈ l, f.length = 2 ∧ '\n' ∉ f ∧ ' ' ∉ f) (t : Text) : attrLine (fun _ => false) (flagLine l) t = (l.tail.contains t && flagNames.contains t) := by
  have hn : nextTok (flagLine l) ':' = ("VmFlags".toList, ' ' :: l.flatMap (· ++ [' '])) := by
    have := nextTok_sep (t := "VmFlags".toList) (sep := ':') (by decide) (by decide) (by decide) (' ' :: l.flatMap (· ++ [' ']))
    exact this
  unfold attrLine
  rw [hn]
  simp only
  rw [if_pos trivial]
  cases l with
  | nil => simp [flagLoop, nextTok, flagNames]
  | cons f fs =>
    obtain ⟨h1, h2, h3⟩ := hl f List.mem_cons_self
    have hne : f ≠ [] := by intro e; rw [e] at h1; cases h1
    have hh : f.head? ≠ some ' ' := fun e => h3 (List.mem_of_head? e)
    have hh2 : (f ++ ' ' :: fs.flatMap (· ++ [' '])).head? ≠ some ' ' := by
      cases f with
      | nil => exact absurd rfl hne
      | cons c f => exact hh
    have hs : nextTok (' ' :: (f :: fs).flatMap (· ++ [' '])) ' ' = (' ' :: f, fs.flatMap (· ++ [' '])) := by
      rw [List.flatMap_cons, List.append_assoc, List.singleton_append]
      unfold nextTok
      have d : (' ' :: (f ++ ' ' :: fs.flatMap (· ++ [' ']))).dropWhile (· = ' ') = f ++ ' ' :: fs.flatMap (· ++ [' ']) := by
        rw [List.dropWhile_cons, if_pos (by simp), dropWhile_head hh2]
      have e : (' ' :: (f ++ ' ' :: fs.flatMap (· ++ [' ']))).takeWhile (· = ' ') = [' '] := by
        rw [List.takeWhile_cons, if_pos (by simp), takeWhile_head hh2]
      rw [d, e]
      simp only
      rw [if_neg (by simp), if_pos (by simp), takeWhile_sep h3, dropWhile_sep h3]
      rfl
    rw [flagLoop, hs]
    simp only
    rw [if_neg (by simp)]
    have hno : flagNames.contains (' ' :: f) = false := by
      have : ∀ x ∈ flagNames, x.head? ≠ some ' ' := by decide
      cases hc : flagNames.contains (' ' :: f) with
      | false => rfl
      | true => exact absurd rfl (this _ (List.contains_iff_mem.1 hc))
    rw [flagLoop_flags fs (fun g hg => by
      obtain ⟨q1, q2, q3⟩ := hl g (List.mem_cons_of_mem _ hg)
      exact ⟨fun e => absurd (e ▸ q1) (by decide), q3⟩) _ _ (by
      rw [List.length_cons, List.flatMap_cons, List.length_append]
      exact Nat.lt_succ_of_le (Nat.le_trans (length_flags fs) (Nat.le_add_left _ _)))]
    rw [hno]
    simp

theorem attrLine_other {l : Text} (hu : ∃ c, l.head? = some c ∧ 'A' ≤ c ∧ c ≤ 'Z') (hk : l.takeWhile (· ≠ ':') ≠ "VmFlags".toList) (set : Text → Bool) : attrLine set l = set := by
  obtain ⟨c, hc, h1, h2⟩ := hu
  have hh : l.head? ≠ some ' ' := by
    rw [hc]; intro e; injection e with e; subst e; revert h1; decide
  have hne : l ≠ [] := by rintro rfl; cases hc
  unfold attrLine nextTok
  rw [dropWhile_head hh, takeWhile_head hh]
  simp only
  rw [if_neg hne]
  split
  · simp only [List.nil_append]
    rw [if_neg hk]
  · rename_i hs
    have : l.takeWhile (· ≠ ':') = l := by
      clear hc hh hne hk
      induction l with
      | nil => rfl
      | cons a l ih =>
        have : a ≠ ':' := fun e => hs (by rw [e]; exact List.mem_cons_self)
        rw [List.takeWhile_cons, if_pos (by simp [this]), ih (fun h => hs (List.mem_cons_of_mem _ h))]
    rw [this] at hk
    simp only
    rw [if_neg hk]

/-- A line that does not begin with a capital letter ends the attributes. -/
theorem attrLines_stop (set : Text → Bool) {rest : List Text} (h : ∀ l, rest.head? = some l → l.head?.any isUpper = false) : attrLines set rest = (set, rest) := by
  cases rest with
  | nil => rfl
  | cons l rest =>
    rw [attrLines, if_neg (by rw [h l rfl]; simp)]

theorem upper_any {l : Text} (hu : ∃ c, l.head? = some c ∧ 'A' ≤ c ∧ c ≤ 'Z') : l.head?.any isUpper = true := by
  obtain ⟨c, hc, h1, h2⟩ := hu
  rw [hc]
  simp [isUpper, h1, h2]

/-- The attributes of a mapping. -/
theorem attrLines_mapping {m : Mapping} (hm : m.Valid) {rest : List Text} (h : ∀ l, rest.head? = some l → l.head?.any isUpper = false) :
    (attrLines (fun _ => false) (m.attrs ++ m.flagLines ++ rest)).2 = rest ∧
    ∀ t, (attrLines (fun _ => false) (m.attrs ++ m.flagLines ++ rest)).1 t = ((m.flags.getD []).tail.contains t && flagNames.contains t) := by
  have ha := hm.attrs
  generalize m.attrs = as at ha
  induction as with
  | nil =>
    rw [List.nil_append]
    unfold Mapping.flagLines
    cases hf : m.flags with
    | none =>
      simp only [List.nil_append]
      rw [attrLines_stop _ h]
      exact ⟨rfl, fun _ => rfl⟩
    | some l =>
      simp only [List.singleton_append]
      rw [attrLines, if_pos (by rfl), attrLines_stop _ h]
      exact ⟨rfl, fun t => flagLine_ok (hm.flags l hf) t⟩
  | cons a as ih =>
    obtain ⟨_, h2, h3⟩ := ha a List.mem_cons_self
    rw [List.cons_append, List.cons_append, attrLines, if_pos (upper_any h2), attrLine_other h2 h3]
    exact ih (fun l hl => ha l (List.mem_cons_of_mem _ hl))

theorem line_head (m : Mapping) : m.line.head?.any isUpper = false := by
  have h := hexText_ok 8 m.start
  unfold Mapping.line
  generalize hexText 8 m.start = t at h
  cases t with
  | nil => exact absurd rfl h.1
  | cons c t =>
    simp only [List.cons_append, List.head?_cons, Option.any_some]
    obtain ⟨d, hd, he⟩ := h.2 c List.mem_cons_self
    rw [he]; exact (digit_other d hd).2.2.2.2

theorem mappings_head (ms : List Mapping) : ∀ l, (ms.flatMap Mapping.lines).head? = some l → l.head?.any isUpper = false := by
  intro l hl
  cases ms with
  | nil => cases hl
  | cons m ms =>
    rw [List.flatMap_cons] at hl
    unfold Mapping.lines at hl
    injection hl with hl
    rw [← hl]; exact line_head m

/-! ### The stream -/

theorem linesOf_line {l : Text} (h : '\n' ∉ l) (rest : Text) : linesOf (l ++ '\n' :: rest) = l :: linesOf rest := by
  induction l with
  | nil => rw [List.nil_append, linesOf]
  | cons c l ih =>
    have hc : c ≠ '\n' := fun e => h (by rw [e]; exact List.mem_cons_self)
    rw [List.cons_append, linesOf, ih (fun hm => h (List.mem_cons_of_mem _ hm))]
    intro e; exact hc e

theorem linesOf_lines {ls : List Text} (h : ∀ l ∈ ls, '\n' ∉ l) : linesOf (ls.flatMap (· ++ ['\n'])) = ls := by
  induction ls with
  | nil => rfl
  | cons l ls ih =>
    rw [List.flatMap_cons, List.append_assoc, List.singleton_append, linesOf_line (h l List.mem_cons_self), ih (fun x hx => h x (List.mem_cons_of_mem _ hx))]

theorem lines_newline {m : Mapping} (hm : m.Valid) : ∀ l ∈ m.lines, '\n' ∉ l := by
  intro l hl
  unfold Mapping.lines at hl
  rcases List.mem_append.1 hl with hl | hl
  · rcases List.mem_cons.1 hl with rfl | hl
    · unfold Mapping.line
      have h1 := (hexText_ok 8 m.start).not.2.2.2
      have h2 := (hexText_ok 8 m.stop).not.2.2.2
      have h3 := (hexText_ok 8 m.offset).not.2.2.2
      have h4 := (hexText_ok 2 m.major).not.2.2.2
      have h5 := (hexText_ok 2 m.minor).not.2.2.2
      have h6 := (digits_ok (base := 10) (by omega) (by omega) m.inode).not.2.2.2
      have h7 := (permText_ok m).2.2.2
      have h8 : '\n' ∉ m.pathText := by
        unfold Mapping.pathText
        cases hp : m.path with
        | none => simp
        | some p =>
          have := (hm.path p hp).2.2
          simp only [List.mem_append, List.mem_replicate, not_or, this, not_false_eq_true, and_true, not_and]
          intro _; decide
      simp only [List.mem_append, List.mem_cons, not_or]
      exact ⟨⟨⟨⟨⟨⟨⟨h1, by decide, h2⟩, by decide, h7⟩, by decide, h3⟩, by decide, h4⟩, by decide, h5⟩, by decide, h6⟩, by decide, h8⟩
    · exact (hm.attrs l hl).1
  · unfold Mapping.flagLines at hl
    cases hf : m.flags with
    | none => rw [hf] at hl; cases hl
    | some fs =>
      rw [hf] at hl
      simp only [List.mem_singleton] at hl
      subst hl
      unfold flagLine
      intro hm'
      rcases List.mem_append.1 hm' with h | h
      · revert h; decide
      · obtain ⟨f, hf1, hf2⟩ := List.mem_flatMap.1 h
        rcases List.mem_append.1 hf2 with h | h
        · exact (hm.flags fs hf f hf1).2.1 h
        · revert h; decide

/-- What the parser makes of mappings. -/
theorem addressSpace_mappings : ∀ (ms : List Mapping), (∀ m ∈ ms, m.Valid) → ∃ rs, addressSpace (ms.flatMap Mapping.lines) = .ok rs ∧ rs.length = ms.length ∧
    ∀ (i : Nat) m r, ms[i]? = some m → rs[i]? = some r → r.start = BitVec.ofNat 64 m.start ∧ r.stop = BitVec.ofNat 64 m.stop ∧ r.fileEnd = 0 ∧ r.offset = BitVec.ofNat 64 m.offset ∧
      r.major = (BitVec.ofNat 64 m.major).setWidth 32 ∧ r.minor = (BitVec.ofNat 64 m.minor).setWidth 32 ∧ r.inode = BitVec.ofNat 64 (misread m.inode) ∧ r.path = m.shown ∧ r.permissions = m.perms ∧
      ∀ t, r.vmflags t = ((m.flags.getD []).tail.contains t && flagNames.contains t) := by
  intro ms
  induction ms with
  | nil => intro _; exact ⟨[], by rw [List.flatMap_nil, addressSpace], rfl, fun i m r h => by cases h⟩
  | cons m ms ih =>
    intro hv
    have hm := hv m List.mem_cons_self
    obtain ⟨rs, h1, h2, h3⟩ := ih (fun x hx => hv x (List.mem_cons_of_mem _ hx))
    obtain ⟨a1, a2⟩ := attrLines_mapping hm (mappings_head ms)
    rw [List.flatMap_cons]
    have e : m.lines ++ ms.flatMap Mapping.lines = m.line :: (m.attrs ++ m.flagLines ++ ms.flatMap Mapping.lines) := by
      unfold Mapping.lines; simp
    rw [e, addressSpace, header_line hm, Res.bind_ok]
    simp only
    rw [a1, h1, Res.bind_ok]
    refine ⟨_, rfl, by rw [List.length_cons, List.length_cons, h2], ?_⟩
    intro i m' r hi1 hi2
    cases i with
    | zero =>
      rw [List.getElem?_cons_zero] at hi1 hi2
      injection hi1 with hi1; injection hi2 with hi2
      subst hi1 hi2
      exact ⟨rfl, rfl, rfl, rfl, rfl, rfl, rfl, rfl, rfl, a2⟩
    | succ i =>
      rw [List.getElem?_cons_succ] at hi1 hi2
      exact h3 i m' r hi1 hi2

/-! ### Any text -/

theorem hexLoop_total (l : Text) : ∀ v, (∃ x, hexLoop v l = .ok x) ∨ hexLoop v l = .exc := by
  induction l with
  | nil => intro v; exact .inl ⟨v, rfl⟩
  | cons c l ih =>
    intro v
    rw [hexLoop]
    split
    · exact ih _
    · split
      · exact ih _
      · split
        · exact ih _
        · exact .inr rfl

theorem permLoop_total (l : Text) : ∀ v, (∃ x, permLoop v l = .ok x) ∨ permLoop v l = .exc := by
  induction l with
  | nil => intro v; exact .inl ⟨v, rfl⟩
  | cons c l ih =>
    intro v
    rw [permLoop]
    split
    · exact ih _
    · split
      · exact .inr rfl
      · exact ih _

theorem total_bind {α β : Type} {a : Res α} {f : α → Res β} (ha : (∃ x, a = .ok x) ∨ a = .exc) (hf : ∀ x, (∃ y, f x = .ok y) ∨ f x = .exc) : (∃ y, (a >>= f) = .ok y) ∨ (a >>= f) = .exc := by
  rcases ha with ⟨x, rfl⟩ | rfl
  · exact hf x
  · exact .inr rfl

theorem header_total (buf : Text) : (∃ r, header buf = .ok r) ∨ header buf = .exc := by
  unfold header
  refine total_bind (hexLoop_total _ _) (fun _ => ?_)
  refine total_bind (hexLoop_total _ _) (fun _ => ?_)
  refine total_bind (permLoop_total _ _) (fun _ => ?_)
  refine total_bind (hexLoop_total _ _) (fun _ => ?_)
  refine total_bind (hexLoop_total _ _) (fun _ => ?_)
  refine total_bind (hexLoop_total _ _) (fun _ => ?_)
  refine total_bind (hexLoop_total _ _) (fun _ => ?_)
  exact .inl ⟨_, rfl⟩

theorem addressSpace_total (ls : List Text) : (∃ rs, addressSpace ls = .ok rs) ∨ addressSpace ls = .exc := by
  generalize hn : ls.length = n
  induction n using Nat.strongRecOn generalizing ls with
  | _ n ih =>
    cases ls with
    | nil => exact .inl ⟨[], by rw [addressSpace]⟩
    | cons buf rest =>
      rw [addressSpace]
      refine total_bind (header_total buf) (fun r => ?_)
      have := attrLines_length r.vmflags rest
      rw [List.length_cons] at hn
      exact total_bind (ih _ (by omega) _ rfl) (fun l => .inl ⟨_, rfl⟩)

theorem linesOf_one {l : Text} (h : '\n' ∉ l) (c : Char) (hc : c ≠ '\n') : linesOf (c :: l) = [c :: l] := by
  induction l generalizing c with
  | nil => rw [linesOf, linesOf]; exact fun e => hc e
  | cons d l ih =>
    rw [linesOf, ih (fun hm => h (List.mem_cons_of_mem _ hm)) d (fun e => h (by rw [e]; exact List.mem_cons_self))]
    exact fun e => hc e

theorem nextTok_first {c sep : Char} (hc : c ≠ sep) (h0 : c ≠ ' ') (rest : Text) : ∃ t r, nextTok (c :: rest) sep = (c :: t, r) := by
  have h1 : (c :: rest).head? ≠ some ' ' := by simpa using h0
  unfold nextTok
  rw [dropWhile_head h1, takeWhile_head h1]
  simp only
  rw [if_neg (by simp)]
  split
  · exact ⟨rest.takeWhile (· ≠ sep), _, by rw [List.nil_append, List.takeWhile_cons, if_pos (by simp [hc])]⟩
  · exact ⟨_, _, rfl⟩

theorem hexLoop_bad {c : Char} (hc : ¬('0' ≤ c ∧ c ≤ '9') ∧ ¬('a' ≤ c ∧ c ≤ 'f') ∧ ¬('A' ≤ c ∧ c ≤ 'F')) (v : BitVec 64) (l : Text) : hexLoop v (c :: l) = .exc := by
  rw [hexLoop, if_neg hc.1, if_neg hc.2.1, if_neg hc.2.2]

theorem nextTok_blank {sep : Char} (rest : Text) : ∃ t r, nextTok (' ' :: rest) sep = (' ' :: t, r) := by
  unfold nextTok
  simp only
  split
  · exact ⟨_, _, rfl⟩
  · split
    · exact ⟨_, _, by rw [List.takeWhile_cons, if_pos (by simp), List.cons_append]⟩
    · exact ⟨_, _, rfl⟩

theorem addressSpace_refused (c : Char) (hc : ¬('0' ≤ c ∧ c ≤ '9') ∧ ¬('a' ≤ c ∧ c ≤ 'f') ∧ ¬('A' ≤ c ∧ c ≤ 'F') ∧ c ≠ '-' ∧ c ≠ '\n') (rest : Text) (hr : '\n' ∉ rest) : addressSpace (linesOf (c :: rest)) = .exc := by
  obtain ⟨h1, h2, h3, h4, h5⟩ := hc
  rw [linesOf_one hr c h5, addressSpace]
  have : ∃ t r, nextTok (c :: rest) '-' = (c :: t, r) := by
    by_cases hb : c = ' '
    · subst hb; exact nextTok_blank rest
    · exact nextTok_first h4 hb rest
  obtain ⟨t, r, ht⟩ := this
  unfold header
  rw [ht]
  simp only
  unfold hex2int
  rw [hexLoop_bad ⟨h1, h2, h3⟩]
  rfl

/-! ### Inodes -/

theorem misread_lt (n : Nat) : ∀ m, m < n → misread m < misread n := by
  induction n using Nat.strongRecOn with
  | _ n ih =>
    intro m hm
    by_cases h : n < 10
    · rw [misread.eq_1 n, misread.eq_1 m, dif_pos h, dif_pos (by omega)]; exact hm
    · rw [misread.eq_1 n, dif_neg h, misread.eq_1 m]
      split
      · rename_i h9
        have : 0 < misread (n / 10) := by
          have := ih (n / 10) (Nat.div_lt_self (by omega) (by omega)) 0 (by omega)
          omega
        omega
      · rcases Nat.lt_or_ge (m / 10) (n / 10) with h1 | h1
        · have := ih (n / 10) (Nat.div_lt_self (by omega) (by omega)) _ h1
          omega
        · have : m / 10 = n / 10 := by omega
          rw [this]; omega

theorem misread_bound : ∀ (k n : Nat), n < 10 ^ (k + 1) → misread n < 16 ^ (k + 1) := by
  intro k
  induction k with
  | zero => intro n hn; rw [misread, dif_pos (by simpa using hn)]; omega
  | succ k ih =>
    intro n hn
    rw [misread]
    split
    · rename_i h; have : 16 ≤ 16 ^ (k + 1 + 1) := Nat.le_self_pow (by omega) 16; omega
    · have hn' : n / 10 < 10 ^ (k + 1) := by rw [Nat.div_lt_iff_lt_mul (by decide)]; rw [Nat.pow_succ] at hn; exact hn
      have := ih _ hn'
      rw [Nat.pow_succ 16 (k + 1)]
      omega

end Pstack.Spec
