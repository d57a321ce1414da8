import Verif.Spec.Main
/-
Property theorems C87: the arguments of the command (Spec/Main.lean).
-/
namespace Pstack.Props
open Pstack.Main Pstack.Spec.Cmd

/-! ### Numbers -/

def digitOf (d : Nat) : Char := Char.ofNat (48 + d)

theorem digit_char : ∀ d, d < 10 → ('0' ≤ digitOf d ∧ digitOf d ≤ '9') ∧ (digitOf d).toNat - '0'.toNat = d ∧ digitOf d ≠ '-' := by decide

theorem char_digit {c : Char} (h : '0' ≤ c ∧ c ≤ '9') : ∃ d, d < 10 ∧ c = digitOf d := by
  obtain ⟨h1, h2⟩ := h
  have g1 : '0'.val.toNat ≤ c.val.toNat := UInt32.le_iff_toNat_le.1 h1
  have g2 : c.val.toNat ≤ '9'.val.toNat := UInt32.le_iff_toNat_le.1 h2
  have e1 : '0'.val.toNat = 48 := rfl
  have e2 : '9'.val.toNat = 57 := rfl
  have e3 : c.toNat = c.val.toNat := rfl
  refine ⟨c.toNat - 48, by omega, ?_⟩
  unfold digitOf
  rw [show 48 + (c.toNat - 48) = c.toNat by omega, Char.ofNat_toNat]

theorem take_digits : ∀ (t : List Char) (n : Nat), ∃ (ds : List Nat) (rest : List Char), takeDigits t n = (ds.foldl (fun n d => 10 * n + d) n, rest) ∧ t = ds.map digitOf ++ rest ∧ ∀ d ∈ ds, d < 10
  | [], n => ⟨[], [], rfl, rfl, (fun _ h => nomatch h)⟩
  | c :: t, n => by
    rw [takeDigits]
    by_cases hc : '0' ≤ c ∧ c ≤ '9'
    · rw [if_pos hc]
      obtain ⟨d, hd, rfl⟩ := char_digit hc
      obtain ⟨ds, rest, h1, h2, h3⟩ := take_digits t (10 * n + d)
      rw [(digit_char d hd).2.1, h1]
      refine ⟨d :: ds, rest, rfl, by rw [h2]; rfl, ?_⟩
      intro e he
      rcases List.mem_cons.1 he with rfl | he
      · exact hd
      · exact h3 e he
    · rw [if_neg hc]
      exact ⟨[], c :: t, rfl, rfl, (fun _ h => nomatch h)⟩

theorem digits_taken : ∀ (ds : List Nat) (n : Nat), (∀ d ∈ ds, d < 10) → takeDigits (ds.map digitOf) n = (ds.foldl (fun n d => 10 * n + d) n, [])
  | [], _, _ => rfl
  | d :: ds, n, h => by
    have hd := digit_char d (h d (.head _))
    rw [List.map_cons, takeDigits, if_pos hd.1, hd.2.1, digits_taken ds _ (fun e he => h e (.tail _ he))]
    rfl

theorem fromChars_eq (neg : Bool) (t : List Char) (h : neg = true ∨ t.head? ≠ some '-') : fromChars (if neg then '-' :: t else t) =
    (if t.length = (takeDigits t 0).2.length then none
     else if -2 ^ 31 ≤ (if neg then -((takeDigits t 0).1 : Int) else ((takeDigits t 0).1 : Int)) ∧ (if neg then -((takeDigits t 0).1 : Int) else ((takeDigits t 0).1 : Int)) < 2 ^ 31 then
      some ((if neg then -((takeDigits t 0).1 : Int) else ((takeDigits t 0).1 : Int)), (takeDigits t 0).2) else none) := by
  unfold fromChars
  cases neg with
  | true => rfl
  | false =>
    rcases h with h | h
    · cases h
    cases t with
    | nil => rfl
    | cons c t =>
      have hc : c ≠ '-' := fun k => h (by rw [k]; rfl)
      have : splitSign (c :: t) = (false, c :: t) := by
        unfold splitSign
        split
        · rename_i heq; injection heq with h1 h2; exact absurd h1 hc
        · rfl
      simp only [Bool.false_eq_true, if_false]
      rw [this]
      simp only [Bool.false_eq_true, if_false]

theorem pid_signed {neg : Bool} {t : List Char} (h : neg = true ∨ t.head? ≠ some '-') {z : Int} : pidOf (if neg then '-' :: t else t) = some z ↔
    ∃ ds : List Nat, ds ≠ [] ∧ (∀ d ∈ ds, d < 10) ∧ t = ds.map digitOf ∧ z = (if neg then -(decimal ds : Int) else (decimal ds : Int)) ∧ -2 ^ 31 ≤ z ∧ z < 2 ^ 31 := by
  unfold pidOf
  rw [fromChars_eq neg t h]
  constructor
  · obtain ⟨ds, rest, h1, h2, h3⟩ := take_digits t 0
    rw [h1]
    simp only
    intro hz
    by_cases hl : t.length = rest.length
    · rw [if_pos hl] at hz; cases hz
    rw [if_neg hl] at hz
    have hds : ds ≠ [] := fun k => hl (by rw [h2, k]; rfl)
    by_cases hr : -2 ^ 31 ≤ (if neg = true then -((ds.foldl (fun n d => 10 * n + d) 0 : Nat) : Int) else ((ds.foldl (fun n d => 10 * n + d) 0 : Nat) : Int)) ∧
        (if neg = true then -((ds.foldl (fun n d => 10 * n + d) 0 : Nat) : Int) else ((ds.foldl (fun n d => 10 * n + d) 0 : Nat) : Int)) < 2 ^ 31
    · rw [if_pos hr] at hz
      cases rest with
      | nil =>
        injection hz with hz
        refine ⟨ds, hds, h3, by rw [h2, List.append_nil], hz.symm, ?_⟩
        rw [← hz]; exact hr
      | cons _ _ => cases hz
    · rw [if_neg hr] at hz; cases hz
  · rintro ⟨ds, h1, h2, rfl, h4, h5⟩
    rw [digits_taken ds 0 h2]
    simp only
    rw [if_neg (by
      intro k
      apply h1
      rw [List.length_map] at k
      exact List.eq_nil_of_length_eq_zero k)]
    rw [if_pos (by rw [h4] at h5; exact h5)]
    simp only
    rw [h4]; rfl

theorem pid_iff {t : List Char} {z : Int} : pidOf t = some z ↔ IsPid t z := by
  unfold IsPid Numeral
  by_cases hm : t.head? = some '-'
  · obtain ⟨r, rfl⟩ : ∃ r, t = '-' :: r := by
      cases t with
      | nil => cases hm
      | cons c r => injection hm with hm; exact ⟨r, by rw [hm]⟩
    have := pid_signed (neg := true) (t := r) (.inl rfl) (z := z)
    simp only [if_true] at this
    rw [this]
    constructor
    · rintro ⟨ds, h1, h2, rfl, h4, h5⟩
      exact ⟨⟨ds, h1, h2, .inr ⟨rfl, h4⟩⟩, h5⟩
    · rintro ⟨⟨ds, h1, h2, ⟨h3, h4⟩ | ⟨h3, h4⟩⟩, h5⟩
      · exfalso
        cases ds with
        | nil => exact h1 rfl
        | cons d ds => injection h3 with h3 _; exact (digit_char d (h2 d (.head _))).2.2 h3.symm
      · injection h3 with _ h3
        exact ⟨ds, h1, h2, h3, h4, h5⟩
  · have := pid_signed (neg := false) (t := t) (.inr hm) (z := z)
    simp only [Bool.false_eq_true, if_false] at this
    rw [this]
    constructor
    · rintro ⟨ds, h1, h2, rfl, h4, h5⟩
      exact ⟨⟨ds, h1, h2, .inl ⟨rfl, h4⟩⟩, h5⟩
    · rintro ⟨⟨ds, h1, h2, ⟨h3, h4⟩ | ⟨h3, h4⟩⟩, h5⟩
      · exact ⟨ds, h1, h2, h3, h4, h5⟩
      · exact absurd (by rw [h3]; rfl) hm

theorem file_iff {t : List Char} : pidOf t = none ↔ IsFile t := by
  unfold IsFile
  constructor
  · intro h z hz
    rw [pid_iff.2 hz] at h; cases h
  · intro h
    cases hp : pidOf t with
    | none => rfl
    | some z => exact absurd (pid_iff.1 hp) (h z)

/-! ### One argument -/

section
variable (w : World) (o : Opts)

/-- An argument is loaded as it should be. -/
theorem load_spec (x : Exec) (arg : List Char) :
    (∃ t, load w x arg = some (some t) ∧ Opens w x arg t) ∨
    (load w x arg = some none ∧ IsFile arg ∧ (∃ ty, w.elfType arg = some ty ∧ ty ≠ 4) ∧ ∀ t, ¬Opens w x arg t) ∨
    (load w x arg = none ∧ ¬Image w arg ∧ ∀ t, ¬Opens w x arg t) := by
  unfold load
  cases hp : pidOf arg with
  | some pid =>
    have h := pid_iff.1 hp
    have hnf : ¬IsFile arg := fun k => k pid h
    have huniq : ∀ z, IsPid arg z → z = pid := fun z hz => by have := pid_iff.2 hz; rw [hp] at this; cases this; rfl
    simp only
    by_cases ha : w.alive pid = true
    · rw [if_pos ha]
      by_cases ho : w.opens (.process pid) x = true
      · rw [if_pos ho]
        exact .inl ⟨_, rfl, .process arg pid h ha ho⟩
      · rw [if_neg ho]
        refine .inr (.inr ⟨rfl, fun k => hnf k.1, fun t ht => ?_⟩)
        cases ht with
        | process p h1 h2 h3 => rw [huniq p h1] at h3; exact ho h3
        | core h1 => exact hnf h1
    · rw [if_neg ha]
      refine .inr (.inr ⟨rfl, fun k => hnf k.1, fun t ht => ?_⟩)
      cases ht with
      | process p h1 h2 h3 => rw [huniq p h1] at h2; exact ha h2
      | core h1 => exact hnf h1
  | none =>
    have h := file_iff.1 hp
    simp only
    cases he : w.elfType arg with
    | none =>
      refine .inr (.inr ⟨rfl, ?_, fun t ht => ?_⟩)
      · rintro ⟨_, ⟨ty, k, _⟩, _⟩; rw [he] at k; cases k
      · cases ht with
        | process p h1 => exact h p h1
        | core _ h2 => rw [he] at h2; cases h2
    | some ty =>
      simp only
      by_cases hty : ty = 4
      · rw [if_neg (show ¬ty ≠ etCore from fun k => k hty)]
        subst hty
        by_cases ho : w.opens (.core arg) x = true
        · rw [if_pos ho]
          exact .inl ⟨_, rfl, .core arg h he ho⟩
        · rw [if_neg ho]
          refine .inr (.inr ⟨rfl, ?_, fun t ht => ?_⟩)
          · rintro ⟨_, ⟨ty, k, k'⟩, _⟩; rw [he] at k; cases k; exact k' rfl
          · cases ht with
            | process p h1 => exact h p h1
            | core _ _ h3 => exact ho h3
      · rw [if_pos (show ty ≠ etCore from hty)]
        refine .inr (.inl ⟨rfl, h, ⟨ty, rfl, hty⟩, fun t ht => ?_⟩)
        cases ht with
        | process p h1 => exact h p h1
        | core _ h2 => rw [he] at h2; cases h2; exact hty rfl

theorem once_spec (t : Target) (x : Exec) : ((once w o t x).2 = false ∧ Stacks w o t x (once w o t x).1) ∨
    ((once w o t x).2 = true ∧ (∀ acts, ¬Stacks w o t x acts) ∧ Before w o t x (once w o t x).1) := by
  unfold once doNative Before
  obtain ⟨p, a, r⟩ := o
  cases p <;> cases a <;> simp only [Bool.false_eq_true, or_false, false_or, or_self, or_true, true_or, if_true, if_false, true_and, false_and]
  · by_cases hn : w.native t x = true
    · rw [if_pos hn]; exact .inl ⟨rfl, .native rfl rfl hn⟩
    · rw [if_neg hn]
      refine .inr ⟨rfl, fun acts h => ?_, by simp⟩
      cases h <;> simp_all
  · cases hp : w.python t x with
    | none =>
      refine .inr ⟨rfl, fun acts h => ?_, by simp⟩
      cases h <;> simp_all
    | some b =>
      simp only
      by_cases hn : w.native t x = true
      · rw [if_pos hn]
        cases b
        · exact .inl ⟨rfl, .other rfl rfl hp hn⟩
        · exact .inl ⟨rfl, .both rfl rfl hp hn⟩
      · rw [if_neg hn]
        refine .inr ⟨rfl, fun acts h => ?_, ?_⟩
        · cases h <;> simp_all
        · cases b <;> simp
  all_goals
    cases hp : w.python t x with
    | none =>
      refine .inr ⟨rfl, fun acts h => ?_, by simp⟩
      cases h <;> simp_all
    | some b =>
      cases b
      · refine .inr ⟨rfl, fun acts h => ?_, by simp⟩
        cases h <;> simp_all
      · exact .inl ⟨rfl, .python rfl hp⟩

/-! ### The command -/

theorem force_cons {e x : Exec} {arg : List Char} {rest : List (List Char)} {i : Nat} {e' : Exec} (hf : InForce w e' rest i x) (h : (Image w arg ∧ e' = some arg) ∨ (¬Image w arg ∧ e' = e)) :
    InForce w e (arg :: rest) (i + 1) x := by
  rcases hf with ⟨j, a, h1, h2, h3, h4, h5⟩ | ⟨h1, h2⟩
  · refine .inl ⟨j + 1, a, by omega, h2, h3, h4, ?_⟩
    intro k b hk hk' hb
    cases k with
    | zero => omega
    | succ k => exact h5 k b (by omega) (by omega) hb
  · rcases h with ⟨h3, h4⟩ | ⟨h3, h4⟩
    · refine .inl ⟨0, arg, by omega, rfl, h3, by rw [h2, h4], ?_⟩
      intro k b hk hk' hb
      cases k with
      | zero => omega
      | succ k => exact h1 k b (by omega) hb
    · refine .inr ⟨?_, by rw [h2, h4]⟩
      intro k b hk hb
      cases k with
      | zero => injection hb with hb; rw [← hb]; exact h3
      | succ k => exact h1 k b (by omega) hb

theorem outcomes_cons {e e' : Exec} {arg : List Char} {rest : List (List Char)} {out : List Act × Bool} {outs : List (List Act × Bool)} (h : Outcome w o e arg out.1 out.2)
    (he : (Image w arg ∧ e' = some arg) ∨ (¬Image w arg ∧ e' = e)) (hr : Outcomes w o e' rest outs) : Outcomes w o e (arg :: rest) (out :: outs) := by
  refine ⟨by rw [List.length_cons, List.length_cons, hr.1], ?_⟩
  intro i a ha
  cases i with
  | zero =>
    injection ha with ha
    subst ha
    exact ⟨e, out, .inr ⟨fun k b hk => by omega, rfl⟩, rfl, h⟩
  | succ i =>
    obtain ⟨x, q, h1, h2, h3⟩ := hr.2 i a ha
    exact ⟨x, q, force_cons w h1 he, h2, h3⟩

theorem loop_spec (hrep : o.repeats = false) : ∀ (args : List (List Char)) (e : Exec) (left : Nat), args.length ≤ left → ∃ outs, Outcomes w o e args outs ∧
    loop w o args e left = (outs.flatMap (·.1), outs.any (·.2))
  | [], _, _, _ => ⟨[], ⟨rfl, fun i a h => by cases i <;> cases h⟩, rfl⟩
  | arg :: rest, e, left, hl => by
    rw [List.length_cons] at hl
    rw [loop]
    rcases load_spec w e arg with ⟨t, h1, h2⟩ | ⟨h1, h2, h3, h4⟩ | ⟨h1, h2, h3⟩
    · rw [h1]
      simp only
      obtain ⟨n, rfl⟩ : ∃ n, left = n + 1 := ⟨left - 1, by omega⟩
      have hni : ¬Image w arg := by
        rintro ⟨k1, ⟨ty, k2, k3⟩, _⟩
        cases h2 with
        | process p h => exact k1 p h
        | core _ h => rw [k2] at h; cases h; exact k3 rfl
      obtain ⟨outs, g1, g2⟩ := loop_spec hrep rest e n (by omega)
      rcases once_spec w o t e with ⟨s1, s2⟩ | ⟨s1, s2, s3⟩
      · have hs : doStack w o t e (n + 1) = ((once w o t e).1, false, n) := by
          rw [doStack]; simp only [s1, hrep, Bool.false_eq_true, if_false]
        rw [hs]
        simp only [Bool.false_eq_true, if_false]
        rw [g2]
        exact ⟨((once w o t e).1, false) :: outs, outcomes_cons w o (.stacks t _ h2 s2) (.inr ⟨hni, rfl⟩) g1, by simp⟩
      · have hs : doStack w o t e (n + 1) = ((once w o t e).1, true, n) := by
          rw [doStack]; simp only [s1, if_true]
        rw [hs]
        simp only [if_true]
        rw [g2]
        exact ⟨((once w o t e).1 ++ [.failed arg], true) :: outs, outcomes_cons w o (.broken t _ h2 s2 s3) (.inr ⟨hni, rfl⟩) g1, by simp⟩
    · rw [h1]
      simp only
      by_cases hi : w.image arg = true
      · rw [if_pos hi]
        obtain ⟨outs, g1, g2⟩ := loop_spec hrep rest (some arg) left (by omega)
        rw [g2]
        exact ⟨([], false) :: outs, outcomes_cons w o (.image ⟨h2, h3, hi⟩) (.inl ⟨⟨h2, h3, hi⟩, rfl⟩) g1, by simp⟩
      · rw [if_neg hi]
        obtain ⟨outs, g1, g2⟩ := loop_spec hrep rest e left (by omega)
        rw [g2]
        exact ⟨([.failed arg], true) :: outs, outcomes_cons w o (.closed (fun k => hi k.2.2) h4) (.inr ⟨fun k => hi k.2.2, rfl⟩) g1, by simp⟩
    · rw [h1]
      simp only
      obtain ⟨outs, g1, g2⟩ := loop_spec hrep rest e left (by omega)
      rw [g2]
      exact ⟨([.failed arg], true) :: outs, outcomes_cons w o (.closed h2 h3) (.inr ⟨h2, rfl⟩) g1, by simp⟩

/-- C87. Every argument is dealt with, in order, whatever became of those before it: what is printed is what belongs to each, and the exit status is 70 if any failed, else 0. (Partial: without
`-b`; and not interrupted, see `C87_not_interrupted`.) -/
theorem C87_arguments_partial (hrep : o.repeats = false) (e : Exec) (he : ∀ f, e = some f → w.image f = true) (args : List (List Char)) (hne : args ≠ []) (left : Nat) (hl : args.length ≤ left) :
    ∃ outs, Outcomes w o e args outs ∧ (main w o none e false args left).1 = outs.flatMap (·.1) ∧
      (main w o none e false args left).2 = if (∃ out ∈ outs, out.2 = true) then 70 else 0 := by
  obtain ⟨outs, h1, h2⟩ := loop_spec w o hrep args e left hl
  have hm : main w o none e false args left = (outs.flatMap (·.1), if outs.any (·.2) then 70 else 0) := by
    unfold main emain
    cases e with
    | none => simp only [Bool.false_eq_true, if_false, if_neg hne, h2]; rfl
    | some f => simp only [Bool.false_eq_true, if_false, if_neg hne, he f rfl, if_true, h2]; rfl
  refine ⟨outs, h1, by rw [hm], ?_⟩
  rw [hm]
  by_cases hb : outs.any (·.2) = true
  · rw [if_pos (List.any_eq_true.1 hb)]; simp only; rw [if_pos hb]
  · rw [if_neg (fun k => hb (List.any_eq_true.2 k))]; simp only; rw [if_neg hb]

theorem stacks_one {t : Target} {x : Exec} {a b : List Act} (h1 : Stacks w o t x a) (h2 : Stacks w o t x b) : a = b := by
  cases h1 <;> cases h2 <;> simp_all

theorem before_one {t : Target} {x : Exec} {a b : List Act} (h1 : Before w o t x a) (h2 : Before w o t x b) : a = b := by
  rcases h1 with ⟨h1, h1', h1'', rfl⟩ | ⟨h1, rfl⟩ <;> rcases h2 with ⟨h2, h2', h2'', rfl⟩ | ⟨h2, rfl⟩
  · rfl
  · exact absurd ⟨h1, h1', h1''⟩ h2
  · exact absurd ⟨h2, h2', h2''⟩ h1
  · rfl

/-- C87. The outcome of an argument is settled by these rules. -/
theorem C87_outcome {x : Exec} {arg : List Char} {a b : List Act} {f g : Bool} (h1 : Outcome w o x arg a f) (h2 : Outcome w o x arg b g) : a = b ∧ f = g := by
  have hio : ∀ t, Image w arg → ¬Opens w x arg t := by
    rintro t ⟨k1, ⟨ty, k2, k3⟩, _⟩ h
    cases h with
    | process p h => exact k1 p h
    | core _ h => rw [k2] at h; cases h; exact k3 rfl
  have hun : ∀ t u, Opens w x arg t → Opens w x arg u → t = u := by
    intro t u ht hu
    cases ht with
    | process p h =>
      cases hu with
      | process q k => have := (pid_iff.2 h).symm.trans (pid_iff.2 k); cases this; rfl
      | core k => exact absurd h (k p)
    | core h =>
      cases hu with
      | process q k => exact absurd k (h q)
      | core k => rfl
  cases h1 with
  | image i1 =>
    cases h2 with
    | image => exact ⟨rfl, rfl⟩
    | stacks t _ i2 => exact absurd i2 (hio t i1)
    | broken t _ i2 => exact absurd i2 (hio t i1)
    | closed i2 => exact absurd i1 i2
  | stacks t _ i1 i1' =>
    cases h2 with
    | image i2 => exact absurd i1 (hio t i2)
    | stacks u _ i2 i2' => rw [hun t u i1 i2] at i1'; exact ⟨stacks_one w o i1' i2', rfl⟩
    | broken u _ i2 i2' => rw [hun t u i1 i2] at i1'; exact absurd i1' (i2' _)
    | closed _ i2 => exact absurd i1 (i2 t)
  | broken t _ i1 i1' i1'' =>
    cases h2 with
    | image i2 => exact absurd i1 (hio t i2)
    | stacks u _ i2 i2' => rw [← hun t u i1 i2] at i2'; exact absurd i2' (i1' _)
    | broken u _ i2 i2' i2'' => rw [hun t u i1 i2] at i1''; rw [before_one w o i1'' i2'']; exact ⟨rfl, rfl⟩
    | closed _ i2 => exact absurd i1 (i2 t)
  | closed i1 i1' =>
    cases h2 with
    | image i2 => exact absurd i2 i1
    | stacks u _ i2 => exact absurd i2 (i1' u)
    | broken u _ i2 => exact absurd i2 (i1' u)
    | closed => exact ⟨rfl, rfl⟩

/-- C87. Without arguments the status is 64; if the executable given by `-e` cannot be opened it is 70, and nothing is traced. -/
theorem C87_usage (e : Exec) (left : Nat) : (main w o none none false [] left) = ([], 64) ∧ (∀ f args, w.image f = false → main w o none (some f) false args left = ([], 70)) := by
  refine ⟨rfl, fun f args hf => ?_⟩
  unfold main emain
  simp only [hf, Bool.false_eq_true, if_false]
  rfl

/-- C87. With `-b` the stacks are printed again and again, until interrupted, or until there is a failure. -/
theorem C87_repeats (hrep : o.repeats = true) (t : Target) (x : Exec) (n : Nat) (h : ∃ acts, Stacks w o t x acts) : ∃ acts, Stacks w o t x acts ∧
    doStack w o t x n = ((List.replicate n acts).flatten, false, 0) := by
  rcases once_spec w o t x with ⟨s1, s2⟩ | ⟨_, s2, _⟩
  · refine ⟨_, s2, ?_⟩
    induction n with
    | zero => rfl
    | succ n ih =>
      rw [doStack]
      simp only [s1, hrep, Bool.false_eq_true, if_false, if_true]
      rw [ih, List.replicate_succ, List.flatten_cons]
  · obtain ⟨acts, h⟩ := h
    exact absurd h (s2 acts)

/-- C87: after an interrupt nothing is printed of the other arguments that can be opened, and this is no failure. -/
theorem C87_not_interrupted (e : Exec) : ∀ (args : List (List Char)), (∀ arg ∈ args, ∃ t, Opens w e arg t) → loop w o args e 0 = ([], false)
  | [], _ => rfl
  | arg :: rest, h => by
    rw [loop]
    obtain ⟨t, ht⟩ := h arg (.head _)
    rcases load_spec w e arg with ⟨t', h1, _⟩ | ⟨_, _, _, h4⟩ | ⟨_, _, h4⟩
    · rw [h1]
      simp only [doStack, Bool.false_eq_true, if_false]
      rw [C87_not_interrupted e rest (fun a ha => h a (.tail _ ha))]
      rfl
    · exact absurd ht (h4 t)
    · exact absurd ht (h4 t)

/-- C87: with `-A` the native stacks are not shown if showing those of Python fails, nor if `-p` is given too. -/
theorem C87_not_all (t : Target) (x : Exec) : (o.python = false → o.all = true → w.python t x = none → once w o t x = ([], true)) ∧
    (o.python = true → .native t x ∉ (once w o t x).1) := by
  constructor
  · intro h1 h2 h3
    unfold once
    rw [if_pos (.inr h2), h3]
  · intro h1 hm
    rcases once_spec w o t x with ⟨_, s⟩ | ⟨_, _, s⟩
    · generalize (once w o t x).1 = acts at s hm
      cases s <;> simp_all
    · rcases s with ⟨s, _⟩ | ⟨_, s⟩
      · rw [h1] at s; cases s
      · rw [s] at hm; cases hm

end

/-! ### A command line -/

/-- Process 12 is there, and is a Python process; a.out is an executable, core.1 a core that can be opened only with it. -/
def cmdWorld : World where
  alive := fun p => p == 12
  elfType := fun f => if f = "a.out".toList then some 2 else if f = "core.1".toList then some 4 else none
  image := fun f => f == "a.out".toList
  opens := fun t e => match t with
    | .process _ => true
    | .core _ => e == some "a.out".toList
  python := fun t _ => match t with
    | .process _ => some true
    | .core _ => some false
  native := fun _ _ => true

theorem C87_example : main cmdWorld ⟨false, true, false⟩ none none false ["core.1".toList, "12".toList, "a.out".toList, "99".toList, "core.1".toList] 100 =
      ([.failed "core.1".toList, .python (.process 12) none, .native (.process 12) none, .failed "99".toList, .native (.core "core.1".toList) (some "a.out".toList)], 70) ∧
    main cmdWorld ⟨true, false, false⟩ none (some "a.out".toList) false ["12".toList] 100 = ([.python (.process 12) (some "a.out".toList)], 0) ∧
    IsPid "12".toList 12 ∧ IsPid "-007".toList (-7) ∧ IsFile "+5".toList ∧ IsFile "2147483648".toList ∧ IsFile "12x".toList := by
  refine ⟨by decide +kernel, by decide +kernel, pid_iff.1 (by decide +kernel), pid_iff.1 (by decide +kernel), file_iff.1 (by decide +kernel), file_iff.1 (by decide +kernel), file_iff.1 (by decide +kernel)⟩

end Pstack.Props
