import Verif.Proof.Json
/-
C39: JSON output.
-/
namespace Pstack.Props
open Pstack.Spec Pstack.Json

mutual
/-- The value a tree stands for, with strings given as code points. -/
def value : Tree (List Nat) → JVal
  | .null => .null
  | .bool b => .bool b
  | .int i => .int i
  | .str s => .str (utf16s s)
  | .list xs => .arr (values xs)
  | .obj _ fs => .obj (members fs)
def values : List (Tree (List Nat)) → List JVal
  | [] => []
  | x :: xs => value x :: values xs
def members : List (List Nat × Tree (List Nat)) → List (List Nat × JVal)
  | [] => []
  | (k, x) :: fs => (utf16s k, value x) :: members fs
end

mutual
/-- The same tree with its strings in UTF-8, which is how the program holds them. -/
def held : Tree (List Nat) → Tree (List Byte)
  | .null => .null
  | .bool b => .bool b
  | .int i => .int i
  | .str s => .str (utf8s s)
  | .list xs => .list (heldItems xs)
  | .obj o fs => .obj o (heldFields fs)
def heldItems : List (Tree (List Nat)) → List (Tree (List Byte))
  | [] => []
  | x :: xs => held x :: heldItems xs
def heldFields : List (List Nat × Tree (List Nat)) → List (List Byte × Tree (List Byte))
  | [] => []
  | (k, x) :: fs => (utf8s k, held x) :: heldFields fs
end

mutual
/-- All strings and keys are made of plain code points. -/
def PlainTree : Tree (List Nat) → Prop
  | .str s => ∀ c ∈ s, Plain c
  | .list xs => PlainItems xs
  | .obj _ fs => PlainFields fs
  | _ => True
def PlainItems : List (Tree (List Nat)) → Prop
  | [] => True
  | x :: xs => PlainTree x ∧ PlainItems xs
def PlainFields : List (List Nat × Tree (List Nat)) → Prop
  | [] => True
  | (k, x) :: fs => (∀ c ∈ k, Plain c) ∧ PlainTree x ∧ PlainFields fs
end

mutual
def need : Tree (List Nat) → Nat
  | .list xs => needItems xs + 1
  | .obj _ fs => needFields fs + 1
  | _ => 1
def needItems : List (Tree (List Nat)) → Nat
  | [] => 0
  | x :: xs => max (need x) (needItems xs) + 1
def needFields : List (List Nat × Tree (List Nat)) → Nat
  | [] => 0
  | (_, x) :: fs => max (need x) (needFields fs) + 1
end

/-- The characters a value may start with. -/
def Starts (s : List Char) : Prop := ∃ c t, s = c :: t ∧ isSpace c = false ∧ c ≠ ']' ∧ c ≠ '}'

theorem skipWs_of {c : Char} {t : List Char} (h : isSpace c = false) : skipWs (c :: t) = c :: t := by
  unfold skipWs; rw [List.dropWhile_cons, if_neg (by simp [h])]

theorem skipWs_space {c : Char} {t : List Char} (h : isSpace c = true) : skipWs (c :: t) = skipWs t := by
  unfold skipWs; rw [List.dropWhile_cons, if_pos h]

theorem digit_starts : ∀ n, n < 10 → isSpace (digit n) = false ∧ digit n ≠ ']' ∧ digit n ≠ '}' := by decide

theorem digits_starts (n : Nat) : ∃ d ds, digits 10 n = d :: ds ∧ ∃ m, m < 10 ∧ d = digit m := by
  induction n using Nat.strongRecOn with
  | ind n ih =>
    by_cases h : n < 10
    · exact ⟨_, [], digits_lt 10 n h, n, h, rfl⟩
    · obtain ⟨d, ds, h1, m, h2⟩ := ih (n / 10) (by omega)
      exact ⟨d, ds ++ [digit (n % 10)], by rw [digits_ge 10 n (by omega) (by omega), h1]; rfl, m, h2⟩

theorem parse_int (n : Nat) (i : Int) (rest : List Char) (h : Ends rest) :
    parseValue (n + 1) (printInt i ++ rest) = some (.int i, rest) := by
  obtain ⟨d, ds, h1, m, hm, rfl⟩ := digits_starts i.natAbs
  have hp := parse_number i.natAbs rest h
  unfold printInt
  split
  · rw [List.cons_append, parseValue, skipWs_of (by decide)]
    simp only [hp]
    show some (JVal.int _, rest) = _
    rw [show -(i.natAbs : Int) = i by omega]
  · rw [h1] at hp ⊢
    rw [List.cons_append] at hp ⊢
    rw [parseValue, skipWs_of (digit_starts m hm).1]
    have hi : (i.natAbs : Int) = i := by omega
    have key : ∀ m, m < 10 → ∀ c, c = digit m → c ≠ 'n' ∧ c ≠ 't' ∧ c ≠ 'f' ∧ c ≠ '"' ∧ c ≠ '[' ∧ c ≠ '{' ∧ c ≠ '-' := by
      intro m hm c hc; subst hc; revert m; decide
    obtain ⟨k1, k2, k3, k4, k5, k6, k7⟩ := key m hm _ rfl
    split
    all_goals first
      | (rename_i heq; injection heq with e1 e2; contradiction)
      | skip
    rw [hp]
    show some (JVal.int _, rest) = _
    rw [hi]

theorem parseValue_space (n : Nat) {c : Char} {t : List Char} (h : isSpace c = true) : parseValue n (c :: t) = parseValue n t := by
  cases n with
  | zero => simp [parseValue]
  | succ n => rw [parseValue, parseValue, skipWs_space h]

theorem parseItems_space (n : Nat) {c : Char} {t : List Char} (h : isSpace c = true) : parseItems n (c :: t) = parseItems n t := by
  cases n with
  | zero => simp [parseItems]
  | succ n => rw [parseItems, parseItems, parseValue_space n h]

theorem parseFields_space (n : Nat) {c : Char} {t : List Char} (h : isSpace c = true) : parseFields n (c :: t) = parseFields n t := by
  cases n with
  | zero => simp [parseFields]
  | succ n => rw [parseFields, parseFields, skipWs_space h]

/-- Printing gives a text that reads back, wherever it stands. -/
def RoundTrips (v : Tree (List Nat)) : Prop :=
  ∃ txt, print (held v) = .ok txt ∧ Starts txt ∧ need v ≤ txt.length ∧
    ∀ n, need v ≤ n → ∀ rest, Ends rest → parseValue n (txt ++ rest) = some (value v, rest)

def ItemsRoundTrip (xs : List (Tree (List Nat))) : Prop :=
  xs ≠ [] → ∃ ts, (∀ sep, printItems sep (heldItems xs) = .ok (sep ++ ts)) ∧ Starts ts ∧ needItems xs ≤ ts.length + 1 ∧
    ∀ n, needItems xs ≤ n → ∀ rest, parseItems n (ts ++ (" ]".toList ++ rest)) = some (values xs, rest)

def FieldsRoundTrip (fs : List (List Nat × Tree (List Nat))) : Prop :=
  fs ≠ [] → ∀ (w : Char), isSpace w = true → ∃ ts, (∀ sep, printFields [',', w] sep (heldFields fs) = .ok (sep ++ ts)) ∧ Starts ts ∧ needFields fs ≤ ts.length + 1 ∧
    ∀ n, needFields fs ≤ n → ∀ close rest, skipWs (close ++ rest) = '}' :: rest → Ends (close ++ rest) →
      parseFields n (ts ++ (close ++ rest)) = some (members fs, rest)

theorem ends_close (rest : List Char) : Ends (" ]".toList ++ rest) := by
  intro c hc
  cases hc
  decide

theorem ends_comma (rest : List Char) : Ends (',' :: rest) := by
  intro c hc
  cases hc
  decide

theorem ends_brace (rest : List Char) : Ends ("}".toList ++ rest) := by
  intro c hc
  cases hc
  decide

theorem ends_space_brace (rest : List Char) : Ends (" }".toList ++ rest) := by
  intro c hc
  cases hc
  decide

theorem skip_space_bracket (rest : List Char) : skipWs (" ]".toList ++ rest) = ']' :: rest := by
  show skipWs (' ' :: ']' :: rest) = _
  rw [skipWs_space (by decide), skipWs_of (by decide)]

theorem skip_brace (rest : List Char) : skipWs ("}".toList ++ rest) = '}' :: rest := by
  show skipWs ('}' :: rest) = _
  rw [skipWs_of (by decide)]

theorem skip_space_brace (rest : List Char) : skipWs (" }".toList ++ rest) = '}' :: rest := by
  show skipWs (' ' :: '}' :: rest) = _
  rw [skipWs_space (by decide), skipWs_of (by decide)]

theorem items_step (x : Tree (List Nat)) (xs : List (Tree (List Nat))) (hx : RoundTrips x) (hxs : ItemsRoundTrip xs) : ItemsRoundTrip (x :: xs) := by
  intro _
  obtain ⟨t, p1, ⟨c, t', p2, p2a, p2b, p2c⟩, p3, p4⟩ := hx
  have p3' : 0 < t.length := by rw [p2]; simp
  cases xs with
  | nil =>
    refine ⟨t, ?_, ⟨c, t', p2, p2a, p2b, p2c⟩, ?_, ?_⟩
    · intro sep
      rw [heldItems, printItems, p1, Res.bind_ok, heldItems, printItems, Res.bind_ok, Res.pure_eq, List.append_nil]
    · simp [needItems]; exact p3
    · intro n hn rest
      simp [needItems] at hn
      obtain ⟨k, rfl⟩ : ∃ k, n = k + 1 := ⟨n - 1, by omega⟩
      rw [parseItems, p4 k (by omega) _ (ends_close rest)]
      simp only [Option.bind_eq_bind, Option.bind_some, skip_space_bracket, values]
  | cons y ys =>
    obtain ⟨ts, q1, q2, q3, q4⟩ := hxs (by simp)
    refine ⟨t ++ (",\n".toList ++ ts), ?_, ⟨c, t' ++ (",\n".toList ++ ts), by rw [p2]; rfl, p2a, p2b, p2c⟩, ?_, ?_⟩
    · intro sep
      rw [heldItems, printItems, p1, Res.bind_ok, q1, Res.bind_ok, Res.pure_eq, List.append_assoc]
    · have : needItems (x :: y :: ys) = max (need x) (needItems (y :: ys)) + 1 := by rw [needItems]
      rw [this]
      simp only [List.length_append]
      have : (",\n".toList).length = 2 := rfl
      omega
    · intro n hn rest
      have : needItems (x :: y :: ys) = max (need x) (needItems (y :: ys)) + 1 := by rw [needItems]
      obtain ⟨k, rfl⟩ : ∃ k, n = k + 1 := ⟨n - 1, by omega⟩
      have e1 : ",\n".toList ++ ts ++ (" ]".toList ++ rest) = ',' :: '\n' :: (ts ++ (" ]".toList ++ rest)) := rfl
      rw [parseItems, List.append_assoc, e1, p4 k (by omega) _ (ends_comma _)]
      simp only [Option.bind_eq_bind, Option.bind_some]
      rw [skipWs_of (by decide)]
      simp only []
      rw [parseItems_space k (by decide), q4 k (by omega) rest]
      rw [values]
      rfl

theorem fields_step (k : List Nat) (x : Tree (List Nat)) (fs : List (List Nat × Tree (List Nat))) (hk : ∀ c ∈ k, Plain c)
    (hx : RoundTrips x) (hfs : FieldsRoundTrip fs) : FieldsRoundTrip ((k, x) :: fs) := by
  intro _ w hw
  obtain ⟨t, p1, ⟨c, t', p2, p2a, p2b, p2c⟩, p3, p4⟩ := hx
  have p3' : 0 < t.length := by rw [p2]; simp
  have hkt := printStr_plain k hk
  have hkl : 2 ≤ (strText k).length := by simp [strText]
  have hst : ∀ r, Starts (strText k ++ r) := fun r => ⟨'"', _, rfl, by decide, by decide, by decide⟩
  have hnt : ∀ r, skipWs (strText k ++ r) = strText k ++ r := fun r => skipWs_of (by decide)
  cases fs with
  | nil =>
    refine ⟨strText k ++ (':' :: t), ?_, hst _, ?_, ?_⟩
    · intro sep
      rw [heldFields, printFields, hkt, Res.bind_ok, p1, Res.bind_ok, heldFields, printFields, Res.bind_ok, Res.pure_eq, List.append_nil]
      simp
    · simp [needFields]; omega
    · intro n hn close rest hc he
      simp [needFields] at hn
      obtain ⟨j, rfl⟩ : ∃ j, n = j + 1 := ⟨n - 1, by omega⟩
      rw [parseFields, List.append_assoc, hnt, parse_string k hk]
      simp only [Option.bind_eq_bind, Option.bind_some, List.cons_append]
      rw [skipWs_of (by decide)]
      simp only []
      rw [p4 j (by omega) _ he]
      simp only [Option.bind_some, hc, members]
  | cons y ys =>
    obtain ⟨ts, q1, q2, q3, q4⟩ := hfs (by simp) w hw
    have hneed : needFields ((k, x) :: y :: ys) = max (need x) (needFields (y :: ys)) + 1 := by rw [needFields]
    refine ⟨strText k ++ (':' :: (t ++ ([',', w] ++ ts))), ?_, hst _, ?_, ?_⟩
    · intro sep
      rw [heldFields, printFields, hkt, Res.bind_ok, p1, Res.bind_ok, q1, Res.bind_ok, Res.pure_eq]
      simp
    · rw [hneed]
      simp only [List.length_append, List.length_cons]
      omega
    · intro n hn close rest hc he
      obtain ⟨j, rfl⟩ : ∃ j, n = j + 1 := ⟨n - 1, by omega⟩
      rw [parseFields, List.append_assoc, hnt, parse_string k hk]
      simp only [Option.bind_eq_bind, Option.bind_some, List.cons_append, List.append_assoc]
      rw [skipWs_of (by decide)]
      simp only []
      rw [p4 j (by omega) _ (ends_comma _)]
      simp only [Option.bind_some]
      rw [skipWs_of (by decide)]
      simp only []
      rw [show ([] : List Char) ++ (ts ++ (close ++ rest)) = ts ++ (close ++ rest) from rfl, parseFields_space j hw, q4 j (by omega) close rest hc he]
      rw [members]
      rfl

mutual
theorem round_trip : ∀ v : Tree (List Nat), PlainTree v → RoundTrips v
  | .null, _ => ⟨_, rfl, ⟨'n', _, rfl, by decide, by decide, by decide⟩, by decide, by
      intro n hn rest _
      obtain ⟨k, rfl⟩ : ∃ k, n = k + 1 := ⟨n - 1, by simp [need] at hn; omega⟩
      rfl⟩
  | .bool true, _ => ⟨_, rfl, ⟨'t', _, rfl, by decide, by decide, by decide⟩, by decide, by
      intro n hn rest _
      obtain ⟨k, rfl⟩ : ∃ k, n = k + 1 := ⟨n - 1, by simp [need] at hn; omega⟩
      rfl⟩
  | .bool false, _ => ⟨_, rfl, ⟨'f', _, rfl, by decide, by decide, by decide⟩, by decide, by
      intro n hn rest _
      obtain ⟨k, rfl⟩ : ∃ k, n = k + 1 := ⟨n - 1, by simp [need] at hn; omega⟩
      rfl⟩
  | .int i, _ => by
      obtain ⟨d, ds, h1, m, hm, rfl⟩ := digits_starts i.natAbs
      refine ⟨printInt i, rfl, ?_, ?_, ?_⟩
      · unfold printInt
        split
        · exact ⟨'-', _, rfl, by decide, by decide, by decide⟩
        · exact ⟨_, _, h1, digit_starts m hm⟩
      · unfold printInt need; split <;> simp [h1]
      · intro n hn rest hr
        obtain ⟨k, rfl⟩ : ∃ k, n = k + 1 := ⟨n - 1, by simp [need] at hn; omega⟩
        exact parse_int k i rest hr
  | .str s, h => by
      rw [PlainTree] at h
      refine ⟨strText s, printStr_plain s h, ⟨'"', _, rfl, by decide, by decide, by decide⟩, by simp [need, strText], ?_⟩
      intro n hn rest _
      obtain ⟨k, rfl⟩ : ∃ k, n = k + 1 := ⟨n - 1, by simp [need] at hn; omega⟩
      have := parse_string s h rest
      unfold strText at this ⊢
      rw [List.cons_append, List.cons_append] at *
      rw [parseValue, skipWs_of (by decide)]
      simp only [this]
      rfl
  | .list [], _ => by
      refine ⟨_, rfl, ⟨'[', _, rfl, by decide, by decide, by decide⟩, by decide, ?_⟩
      intro n hn rest _
      obtain ⟨k, rfl⟩ : ∃ k, n = k + 1 := ⟨n - 1, by simp [need] at hn; omega⟩
      rfl
  | .list (x :: xs), h => by
      rw [PlainTree] at h
      obtain ⟨ts, q1, ⟨c, t', q2, q2a, q2b, q2c⟩, q3, q4⟩ := items_round_trip (x :: xs) h (by simp)
      have hn1 : need (.list (x :: xs)) = needItems (x :: xs) + 1 := by rw [need]
      have hpr : print (held (.list (x :: xs))) = .ok ("[ ".toList ++ ts ++ " ]".toList) := by
        rw [held, print, q1, Res.bind_ok]; rfl
      refine ⟨_, hpr, ⟨'[', _, rfl, by decide, by decide, by decide⟩, ?_, ?_⟩
      · rw [hn1]; simp; omega
      · intro n hn rest hr
        obtain ⟨k, rfl⟩ : ∃ k, n = k + 1 := ⟨n - 1, by omega⟩
        have hq := q4 k (by omega) rest
        rw [List.append_assoc, List.append_assoc]
        show parseValue (k + 1) ('[' :: ' ' :: (ts ++ (" ]".toList ++ rest))) = _
        rw [parseValue, skipWs_of (by decide)]
        rw [q2] at hq ⊢
        rw [List.cons_append] at hq ⊢
        simp only []
        rw [skipWs_space (by decide), skipWs_of q2a]
        split
        · rename_i heq; injection heq with e1 e2; exact absurd e1 q2b
        · rw [hq, value]; rfl
  | .obj false [], _ => by
      refine ⟨_, rfl, ⟨'{', _, rfl, by decide, by decide, by decide⟩, by decide, ?_⟩
      intro n hn rest _
      obtain ⟨k, rfl⟩ : ∃ k, n = k + 1 := ⟨n - 1, by simp [need] at hn; omega⟩
      rfl
  | .obj true [], _ => by
      refine ⟨_, rfl, ⟨'{', _, rfl, by decide, by decide, by decide⟩, by decide, ?_⟩
      intro n hn rest _
      obtain ⟨k, rfl⟩ : ∃ k, n = k + 1 := ⟨n - 1, by simp [need] at hn; omega⟩
      rfl
  | .obj false (x :: xs), h => by
      rw [PlainTree] at h
      obtain ⟨ts, q1, ⟨c, t', q2, q2a, q2b, q2c⟩, q3, q4⟩ := fields_round_trip (x :: xs) h (by simp) '\n' (by decide)
      have hn1 : need (.obj false (x :: xs)) = needFields (x :: xs) + 1 := by rw [need]
      have hpr : print (held (.obj false (x :: xs))) = .ok ("{".toList ++ ts ++ "}".toList) := by
        rw [held, print, show ",\n".toList = [',', '\n'] from rfl, q1, Res.bind_ok]; rfl
      refine ⟨_, hpr, ⟨'{', _, rfl, by decide, by decide, by decide⟩, ?_, ?_⟩
      · rw [hn1]; simp; omega
      · intro n hn rest hr
        obtain ⟨k, rfl⟩ : ∃ k, n = k + 1 := ⟨n - 1, by omega⟩
        have hq := q4 k (by omega) "}".toList rest (skip_brace rest) (ends_brace rest)
        rw [List.append_assoc, List.append_assoc]
        show parseValue (k + 1) ('{' :: (ts ++ ("}".toList ++ rest))) = _
        rw [parseValue, skipWs_of (by decide)]
        rw [q2] at hq ⊢
        rw [List.cons_append] at hq ⊢
        simp only []
        rw [skipWs_of q2a]
        split
        · rename_i heq; injection heq with e1 e2; exact absurd e1 q2c
        · rw [hq, value]; rfl
  | .obj true (x :: xs), h => by
      rw [PlainTree] at h
      obtain ⟨ts, q1, ⟨c, t', q2, q2a, q2b, q2c⟩, q3, q4⟩ := fields_round_trip (x :: xs) h (by simp) ' ' (by decide)
      have hn1 : need (.obj true (x :: xs)) = needFields (x :: xs) + 1 := by rw [need]
      have hpr : print (held (.obj true (x :: xs))) = .ok ("{ ".toList ++ ts ++ " }".toList) := by
        rw [held, print, show ", ".toList = [',', ' '] from rfl, q1, Res.bind_ok]; rfl
      refine ⟨_, hpr, ⟨'{', _, rfl, by decide, by decide, by decide⟩, ?_, ?_⟩
      · rw [hn1]; simp; omega
      · intro n hn rest hr
        obtain ⟨k, rfl⟩ : ∃ k, n = k + 1 := ⟨n - 1, by omega⟩
        have hq := q4 k (by omega) " }".toList rest (skip_space_brace rest) (ends_space_brace rest)
        rw [List.append_assoc, List.append_assoc]
        show parseValue (k + 1) ('{' :: ' ' :: (ts ++ (" }".toList ++ rest))) = _
        rw [parseValue, skipWs_of (by decide)]
        rw [q2] at hq ⊢
        rw [List.cons_append] at hq ⊢
        simp only []
        rw [skipWs_space (by decide), skipWs_of q2a]
        split
        · rename_i heq; injection heq with e1 e2; exact absurd e1 q2c
        · rw [hq, value]; rfl
theorem items_round_trip : ∀ xs : List (Tree (List Nat)), PlainItems xs → ItemsRoundTrip xs
  | [], _ => fun h => absurd rfl h
  | x :: xs, h => by
    rw [PlainItems] at h
    exact items_step x xs (round_trip x h.1) (items_round_trip xs h.2)
theorem fields_round_trip : ∀ fs : List (List Nat × Tree (List Nat)), PlainFields fs → FieldsRoundTrip fs
  | [], _ => fun h => absurd rfl h
  | (k, x) :: fs, h => by
    rw [PlainFields] at h
    exact fields_step k x fs h.1 (round_trip x h.2.1) (fields_round_trip fs h.2.2)
end

/-- C39. The text printed for a value, whatever its shape, is a JSON text for that value. Missing: strings with control characters
other than \b \f \n \r \t, or with code points above U+FFFF, for which it is false (below). -/
theorem C39_round_trip_partial (v : Tree (List Nat)) (h : PlainTree v) : ∃ txt, print (held v) = .ok txt ∧ parseJson txt = some (value v) := by
  obtain ⟨txt, p1, p2, p3, p4⟩ := round_trip v h
  refine ⟨txt, p1, ?_⟩
  have := p4 (txt.length + 1) (by omega) [] (by intro c hc; cases hc)
  rw [List.append_nil] at this
  unfold parseJson
  rw [this]
  rfl

/-- A tree that meets the hypothesis: nested containers, a non-ASCII key, escapes and a negative number. -/
def sampleTree : Tree (List Nat) :=
  .obj true [([0x6e, 0x22, 0x20ac], .list [.int (-42), .null, .obj false [([0xe9], .str [0x0a, 0x41])]]), ([], .bool true)]

theorem C39_example : PlainTree sampleTree := by
  have key : ∀ cs : List Nat, cs = [0x6e, 0x22, 0x20ac] ∨ cs = [0xe9] ∨ cs = [0x0a, 0x41] ∨ cs = [] → ∀ c ∈ cs, Plain c := by
    rintro cs (rfl | rfl | rfl | rfl) c hc <;> simp at hc <;> (try rcases hc with rfl | rfl | rfl) <;> simp_all [Plain, IsScalar]
  simp only [sampleTree, PlainTree, PlainFields, PlainItems]
  exact ⟨key _ (by simp), ⟨trivial, trivial, ⟨key _ (by simp), key _ (by simp), trivial⟩, trivial⟩, key _ (by simp), trivial, trivial⟩

theorem print_one (c : Nat) (t : List Char) (h : escape (utf8s [c]) = .ok t) : print (held (.str [c])) = .ok ('"' :: t ++ ['"']) := by
  rw [held, print, printStr, h]
  rfl

theorem control_escapes (c : Nat) (h : c < 32) (hs : c ≠ 8 ∧ c ≠ 9 ∧ c ≠ 10 ∧ c ≠ 12 ∧ c ≠ 13) : escape (utf8s [c]) = .ok ('\\' :: 'u' :: digits 16 c) := by
  have e : (BitVec.ofNat 8 c).toNat = c := by rw [BitVec.toNat_ofNat]; omega
  have hone : escapeOne (BitVec.ofNat 8 c) [] = .ok ('\\' :: 'u' :: digits 16 c, []) := by
    unfold escapeOne
    rw [e]
    split <;> try omega
    rw [if_pos h]
  rw [show utf8s [c] = [BitVec.ofNat 8 c] by rw [utf8s, List.map_cons, utf8, if_pos (by omega)]; rfl, escape_cons _ _ _ _ hone, escape]
  simp

/-- C39, where it fails: a string that is one control character with no short form gives a text that is not JSON. -/
theorem C39_not_control (c : Nat) (h : c < 32) (hs : c ≠ 8 ∧ c ≠ 9 ∧ c ≠ 10 ∧ c ≠ 12 ∧ c ≠ 13) :
    ∃ txt, print (held (.str [c])) = .ok txt ∧ parseJson txt = none := by
  refine ⟨_, print_one c _ (control_escapes c h hs), ?_⟩
  by_cases h1 : c < 16
  · rw [digits_lt 16 c h1]
    revert c
    intro c _ _ h1
    have : ∀ c, c < 16 → (parseJson ('"' :: ('\\' :: 'u' :: [digit c]) ++ ['"'])).isNone = true := by decide +kernel
    exact Option.isNone_iff_eq_none.1 (this c h1)
  · rw [digits_ge 16 c (by omega) (by omega), digits_lt 16 (c / 16) (by omega)]
    have : ∀ c, c < 32 → (parseJson ('"' :: ('\\' :: 'u' :: [digit (c / 16), digit (c % 16)]) ++ ['"'])).isNone = true := by decide +kernel
    exact Option.isNone_iff_eq_none.1 (this c h)

/-- C39, where it fails: control characters followed by other text are silently read back as another character. Here the four
characters U+0001, a, b, c come back as the one character U+1ABC. -/
theorem C39_not_control_text : ∃ txt, print (held (.str [0x01, 0x61, 0x62, 0x63])) = .ok txt ∧ parseJson txt = some (.str [0x1abc]) := by
  refine ⟨"\"\\u1abc\"".toList, ?_, ?_⟩
  · have h1 : escapeOne 0x01#8 [0x61#8, 0x62#8, 0x63#8] = .ok (['\\', 'u', '1'], [0x61#8, 0x62#8, 0x63#8]) := by
      unfold escapeOne
      simp only [BitVec.toNat_ofNat, Nat.reducePow, Nat.reduceMod]
      rw [if_pos (by decide), digits_lt 16 1 (by decide)]
      rfl
    have h2 : escape (utf8s [0x61, 0x62, 0x63]) = .ok (([0x61, 0x62, 0x63].map charText).flatten) :=
      escape_plain _ (by intro c hc; simp at hc; rcases hc with rfl | rfl | rfl <;> simp [Plain, IsScalar])
    rw [held, print, printStr, show utf8s [0x01, 0x61, 0x62, 0x63] = 0x01#8 :: [0x61#8, 0x62#8, 0x63#8] from rfl, escape_cons _ _ _ _ h1,
      show [0x61#8, 0x62#8, 0x63#8] = utf8s [0x61, 0x62, 0x63] from rfl, h2]
    rfl
  · rfl

theorem hexDigit_char : ∀ n, n < 16 → (digit n ≠ '"' ∧ digit n ≠ '\\' ∧ ¬ (digit n).toNat < 0x20 ∧ utf16 (digit n).toNat = [(digit n).toNat] ∧ (digit n).toNat < 128) := by decide

theorem parse_digit (n m : Nat) (hm : m < 16) (s : List Char) :
    parseChars (n + 1) (digit m :: s) = (parseChars n s).map fun r => ((digit m).toNat :: r.1, r.2) := by
  obtain ⟨h1, h2, h3, h4, _⟩ := hexDigit_char m hm
  rw [parseChars, if_neg h1, if_neg h2, if_neg h3, h4]
  cases parseChars n s <;> rfl

/-- C39, where it fails: every code point above U+FFFF is silently read back as other characters, since `\u` takes exactly four
digits and five or six are written. -/
theorem C39_not_astral (c : Nat) (h1 : 0x10000 ≤ c) (h2 : c < 0x110000) :
    ∃ txt units, print (held (.str [c])) = .ok txt ∧ parseJson txt = some (.str units) ∧ units ≠ utf16s [c] := by
  obtain ⟨b, bs, e1, e2⟩ := escapeOne_utf8 c (by omega) h2 []
  have hesc : escape (utf8s [c]) = .ok ('\\' :: 'u' :: pad 4 (digits 16 c)) := by
    rw [show utf8s [c] = utf8 c by simp [utf8s], e1]
    rw [List.append_nil] at e2
    rw [escape_cons _ _ _ _ e2, escape]
    simp
  have hu : utf16s [c] = [0xd800 + (c - 0x10000) / 1024, 0xdc00 + (c - 0x10000) % 1024] := by
    simp [utf16s, utf16, show ¬ c < 65536 by omega]
  have hread : ∀ (v : Nat) (tail : List Char) (u : List Nat), v < 65536 → 0x1000 ≤ v →
      parseChars (tail.length + 7) (tail ++ ['"']) = some (u, []) →
      parseJson ('"' :: '\\' :: 'u' :: (digits 16 v ++ tail ++ ['"'])) = some (.str (v :: u)) := by
    intro v tail u hv hv2 ht
    have hp : digits 16 v = pad 4 (digits 16 v) := by
      have : (digits 16 v).length = 4 := by
        rw [digits_ge 16 v (by omega) (by omega), digits_ge 16 (v / 16) (by omega) (by omega), digits_ge 16 (v / 16 / 16) (by omega) (by omega),
          digits_lt 16 (v / 16 / 16 / 16) (by omega)]
        rfl
      rw [pad, this]; rfl
    rw [hp, pad4 v hv]
    have hesc : parseEscape ('u' :: digit (v / 4096) :: digit (v / 256 % 16) :: digit (v / 16 % 16) :: digit (v % 16) :: (tail ++ ['"'])) = some ([v], tail ++ ['"']) := by
      simp only [parseEscape, hexVal_digit _ (show v / 4096 < 16 by omega), hexVal_digit _ (show v / 256 % 16 < 16 by omega),
        hexVal_digit _ (show v / 16 % 16 < 16 by omega), hexVal_digit _ (show v % 16 < 16 by omega)]
      show some ([4096 * (v / 4096) + 256 * (v / 256 % 16) + 16 * (v / 16 % 16) + v % 16], _) = _
      rw [show 4096 * (v / 4096) + 256 * (v / 256 % 16) + 16 * (v / 16 % 16) + v % 16 = v by omega]
    have hstr : parseString ('"' :: '\\' :: 'u' :: digit (v / 4096) :: digit (v / 256 % 16) :: digit (v / 16 % 16) :: digit (v % 16) :: (tail ++ ['"'])) = some (v :: u, []) := by
      rw [parseString, parseChars, if_neg (by decide), if_pos rfl, hesc]
      simp only [Option.bind_eq_bind, Option.bind_some, List.length_cons, List.length_append, List.length_nil, Nat.zero_add]
      rw [show tail.length + 1 + 1 + 1 + 1 + 1 + 1 + 1 = tail.length + 7 from rfl, ht]
      rfl
    unfold parseJson
    simp only [List.cons_append, List.nil_append, List.append_assoc]
    rw [parseValue, skipWs_of (by decide)]
    simp only [hstr, Option.bind_eq_bind, Option.bind_some]
    rfl
  by_cases h3 : c < 0x100000
  · have hd : pad 4 (digits 16 c) = digits 16 (c / 16) ++ [digit (c % 16)] := by
      rw [digits_ge 16 c (by omega) (by omega)]
      have : (digits 16 (c / 16)).length = 4 := by
        rw [digits_ge 16 (c / 16) (by omega) (by omega), digits_ge 16 (c / 16 / 16) (by omega) (by omega), digits_ge 16 (c / 16 / 16 / 16) (by omega) (by omega),
          digits_lt 16 (c / 16 / 16 / 16 / 16) (by omega)]
        rfl
      rw [pad, List.length_append, this]; rfl
    refine ⟨_, [c / 16, (digit (c % 16)).toNat], print_one c _ hesc, ?_, ?_⟩
    · rw [hd]
      exact hread (c / 16) [digit (c % 16)] _ (by omega) (by omega) (by
        rw [List.singleton_append, parse_digit _ _ (by omega)]; rfl)
    · rw [hu]
      have := (hexDigit_char (c % 16) (by omega)).2.2.2.2
      intro hh
      injection hh with a b
      injection b with b _
      omega
  · have hd : pad 4 (digits 16 c) = digits 16 (c / 256) ++ [digit (c / 16 % 16), digit (c % 16)] := by
      rw [digits_ge 16 c (by omega) (by omega), digits_ge 16 (c / 16) (by omega) (by omega), show c / 16 / 16 = c / 256 by omega]
      have : (digits 16 (c / 256)).length = 4 := by
        rw [digits_ge 16 (c / 256) (by omega) (by omega), digits_ge 16 (c / 256 / 16) (by omega) (by omega), digits_ge 16 (c / 256 / 16 / 16) (by omega) (by omega),
          digits_lt 16 (c / 256 / 16 / 16 / 16) (by omega)]
        rfl
      rw [pad, List.length_append, List.length_append, this]; simp
    refine ⟨_, [c / 256, (digit (c / 16 % 16)).toNat, (digit (c % 16)).toNat], print_one c _ hesc, ?_, ?_⟩
    · rw [hd]
      exact hread (c / 256) [digit (c / 16 % 16), digit (c % 16)] _ (by omega) (by omega) (by
        rw [List.cons_append, parse_digit _ _ (by omega), List.singleton_append, parse_digit _ _ (by omega)]; rfl)
    · rw [hu]
      intro hh
      injection hh with a b
      injection b with b c
      cases c

/-- C39, where it fails: a lone continuation byte, which is not UTF-8, is not rejected but printed as some ASCII character. -/
theorem C39_not_invalid : ∀ k, k < 64 → escape [BitVec.ofNat 8 (0x80 + k)] = .ok ('\\' :: 'u' :: pad 4 (digits 16 k)) := by
  intro k hk
  have e : (BitVec.ofNat 8 (0x80 + k)).toNat = 0x80 + k := by rw [BitVec.toNat_ofNat]; omega
  have hl : ∀ k, k < 64 → leadingOnes 8 (0x80 + k) 0 = (k, 1) := by decide
  have : escapeOne (BitVec.ofNat 8 (0x80 + k)) [] = .ok ('\\' :: 'u' :: pad 4 (digits 16 k), []) := by
    rw [escapeOne_multi _ _ (by omega), e, hl k hk]
    rfl
  rw [escape_cons _ _ _ _ this, escape]
  simp

end Pstack.Props
