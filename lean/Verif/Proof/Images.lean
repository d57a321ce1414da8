import Verif.Spec.Images
namespace Pstack.Images
open Pstack.Spec

theorem dropWhile_all {p : Char → Bool} {a b : List Char} (ha : ∀ c ∈ a, p c = true) (hb : ∀ c, b.head? = some c → p c = false) : (a ++ b).dropWhile p = b := by
  induction a with
  | nil =>
    cases b with
    | nil => rfl
    | cons c b => simp [List.dropWhile, hb c rfl]
  | cons x a ih => simp only [List.cons_append, List.dropWhile, ha x (by simp)]; exact ih fun c hc => ha c (by simp [hc])

theorem takeWhile_all {p : Char → Bool} {a b : List Char} (ha : ∀ c ∈ a, p c = true) (hb : ∀ c, b.head? = some c → p c = false) : (a ++ b).takeWhile p = a := by
  induction a with
  | nil =>
    cases b with
    | nil => rfl
    | cons c b => simp [List.takeWhile, hb c rfl]
  | cons x a ih => simp only [List.cons_append, List.takeWhile, ha x (by simp)]; rw [ih fun c hc => ha c (by simp [hc])]

theorem head_take {l : List Char} {k : Nat} {c : Char} (h : (l.take k).head? = some c) : l.head? = some c := by
  cases l with
  | nil => simp at h
  | cons a l =>
    cases k with
    | zero => simp at h
    | succ k => exact h

/-- The interpreter the code finds. -/
theorem interpreter_eq {blanks interp rest : List Char} (hb : ∀ c ∈ blanks, c = ' ' ∨ c = '\t') (hn : interp ≠ []) (hi : ∀ c ∈ interp, isSpace c = false)
    (hr : ∀ c, rest.head? = some c → c = ' ' ∨ c = '\t' ∨ c = '\n') (hl : 2 + blanks.length + interp.length ≤ 64) :
    interpreter (['#', '!'] ++ blanks ++ interp ++ rest) = interp := by
  unfold interpreter
  have e : ((['#', '!'] ++ blanks ++ interp ++ rest).take 64).drop 2 = blanks ++ (interp ++ rest.take (64 - (2 + blanks.length + interp.length))) := by
    rw [List.take_append, List.take_of_length_le (by simp only [List.length_append, List.length_cons, List.length_nil]; omega)]
    have e : (['#', '!'] ++ blanks ++ interp).length = 2 + blanks.length + interp.length := by simp only [List.length_append, List.length_cons, List.length_nil]
    rw [e]
    simp
  rw [e, dropWhile_all (fun c hc => by rcases hb c hc with h | h <;> subst h <;> decide)
    (fun c hc => by
      cases interp with
      | nil => exact absurd rfl hn
      | cons a l => simp only [List.cons_append, List.head?_cons, Option.some.injEq] at hc; subst hc; exact hi _ (by simp)),
    takeWhile_all (fun c hc => by simp [hi c hc])
    (fun c hc => by rcases hr c (head_take hc) with h | h | h <;> subst h <;> decide)]

/-- The interpreter of a script, as it should be. -/
def trueInterp (c : List Char) : Path := ((c.drop 2).dropWhile fun c => c = ' ' ∨ c = '\t').takeWhile fun c => ¬ (c = ' ' ∨ c = '\t' ∨ c = '\n')

theorem trueInterp_eq {blanks interp rest : List Char} (hb : ∀ c ∈ blanks, c = ' ' ∨ c = '\t') (hn : interp ≠ []) (hi : ∀ c ∈ interp, c ≠ ' ' ∧ c ≠ '\t' ∧ c ≠ '\n')
    (hr : ∀ c, rest.head? = some c → c = ' ' ∨ c = '\t' ∨ c = '\n') : trueInterp (['#', '!'] ++ blanks ++ interp ++ rest) = interp := by
  unfold trueInterp
  have e : (['#', '!'] ++ blanks ++ interp ++ rest).drop 2 = blanks ++ (interp ++ rest) := by simp
  rw [e, dropWhile_all (fun c hc => by simpa using hb c hc)
    (fun c hc => by
      cases interp with
      | nil => exact absurd rfl hn
      | cons a l =>
        simp only [List.cons_append, List.head?_cons, Option.some.injEq] at hc; subst hc
        have := hi a (by simp)
        simp [this.1, this.2.1]),
    takeWhile_all (fun c hc => by have := hi c hc; simp [this.1, this.2.1, this.2.2])
    (fun c hc => by rcases hr c hc with h | h | h <;> subst h <;> decide)]

theorem notSpace {c : Char} (h : isSpace c = false) : c ≠ ' ' ∧ c ≠ '\t' ∧ c ≠ '\n' := by
  refine ⟨?_, ?_, ?_⟩ <;> intro e <;> subst e <;> exact absurd h (by decide)

theorem scriptOf_take {c : List Char} {i : Path} (h : ScriptOf c i) : c.take 2 = ['#', '!'] := by
  obtain ⟨b, r, rfl, _⟩ := h
  simp

theorem scriptOf_iff {fs : Files} (hf : ScriptsFit fs) {p : Path} {c : List Char} (hc : fs.content p = some c) {i : Path} : ScriptOf c i ↔ c.take 2 = ['#', '!'] ∧ interpreter c = i := by
  constructor
  · intro h
    have ht := scriptOf_take h
    obtain ⟨_, b, j, r, rfl, hb, hj, hs, hr, hl⟩ := hf p c hc ht
    obtain ⟨b', r', e, hb', hn', hi', hr'⟩ := h
    have hne : j ≠ [] := by intro e; subst e; simp at hj
    have h1 := trueInterp_eq hb hne (fun c hc => notSpace (hs c hc)) hr
    have h2 := trueInterp_eq hb' hn' hi' hr'
    rw [← e, h1] at h2
    exact ⟨ht, by rw [interpreter_eq hb hne hs hr hl]; exact h2⟩
  · rintro ⟨ht, rfl⟩
    obtain ⟨_, b, j, r, rfl, hb, hj, hs, hr, hl⟩ := hf p c hc ht
    have hne : j ≠ [] := by intro e; subst e; simp at hj
    rw [interpreter_eq hb hne hs hr hl]
    exact ⟨b, r, rfl, hb, hne, fun c hc => notSpace (hs c hc), hr⟩

theorem isScript_iff {fs : Files} (hf : ScriptsFit fs) {p : Path} {c : List Char} (hc : fs.content p = some c) : isScript c = true ↔ c.take 2 = ['#', '!'] := by
  unfold isScript
  constructor
  · intro h; simp only [decide_eq_true_eq] at h; exact h.2
  · intro h
    obtain ⟨_, b, j, r, rfl, hb, hj, hs, hr, hl⟩ := hf p c hc h
    simp only [decide_eq_true_eq]
    refine ⟨?_, h⟩
    simp only [List.length_take, List.length_append, List.length_cons, List.length_nil]
    omega

/-- The file of an image. -/
def Try.file : Try → Option Path
  | .found i | .script i => some i.file
  | .next => none

theorem tryPath_provides {fs : Files} (hf : ScriptsFit fs) (s : St) (p : Path) (d : Bool) :
    (∀ f, (tryPath fs s p d).2.file = some f ↔ HoldsImage fs d p f) := by
  intro f
  unfold tryPath openFile openImage
  simp only
  cases hc : fs.content p with
  | none =>
    simp only [Try.file]
    constructor
    · intro h; cases h
    · intro h; cases h with
      | image c h => rw [hc] at h; cases h
      | script c i ci h1 h => rw [hc] at h; cases h
  | some c =>
    simp only
    by_cases hs : (!d && isScript c) = true
    · rw [if_pos hs]
      simp only [Bool.and_eq_true, Bool.not_eq_true'] at hs
      have ht := (isScript_iff hf hc).1 hs.2
      unfold openFile
      simp only
      have hne := (hf p c hc ht).1
      cases hi : fs.content (interpreter c) with
      | none =>
        simp only [Try.file]
        constructor
        · intro h; cases h
        · intro h; cases h with
          | image c' h h' => rw [hc] at h; cases h; rw [hne] at h'; cases h'
          | script c' i ci h1 h2 h3 h4 =>
            rw [hc] at h2; cases h2
            rw [((scriptOf_iff hf hc).1 h3).2] at hi
            rw [hi] at h4; cases h4
      | some ci =>
        simp only
        by_cases he : fs.isElf ci = true
        · rw [if_pos he]
          simp only [St.make, Try.file]
          constructor
          · intro h; cases h; exact .script c _ ci hs.1 hc ((scriptOf_iff hf hc).2 ⟨ht, rfl⟩) hi he
          · intro h; cases h with
            | image c' h h' => rw [hc] at h; cases h; rw [hne] at h'; cases h'
            | script c' i ci h1 h2 h3 h4 => rw [hc] at h2; cases h2; rw [((scriptOf_iff hf hc).1 h3).2]
        · rw [if_neg he]
          simp only [Try.file]
          constructor
          · intro h; cases h
          · intro h; cases h with
            | image c' h h' => rw [hc] at h; cases h; rw [hne] at h'; cases h'
            | script c' i ci h1 h2 h3 h4 h5 =>
              rw [hc] at h2; cases h2
              rw [((scriptOf_iff hf hc).1 h3).2] at hi
              rw [hi] at h4; cases h4; exact absurd h5 he
    · rw [if_neg hs]
      have hno : ∀ i, d = false → ¬ ScriptOf c i := by
        intro i hd h
        have := (isScript_iff hf hc).2 (scriptOf_take h)
        apply hs; rw [hd, this]; rfl
      by_cases he : fs.isElf c = true
      · rw [if_pos he]
        simp only [St.make, Try.file]
        constructor
        · intro h; cases h; exact .image c hc he
        · intro h; cases h with
          | image => rfl
          | script c' i ci h1 h2 h3 => rw [hc] at h2; cases h2; exact absurd h3 (hno _ h1)
      · rw [if_neg he]
        simp only [Try.file]
        constructor
        · intro h; cases h
        · intro h; cases h with
          | image c' h h' => rw [hc] at h; cases h; exact absurd h' he
          | script c' i ci h1 h2 h3 => rw [hc] at h2; cases h2; exact absurd h3 (hno _ h1)

def Search.image : Search → Option Image
  | .returned i | .over i => i

theorem searchLoop_best {fs : Files} (hf : ScriptsFit fs) (name : Path) (d : Bool) (resolve : Bool) (tgt : Path → Path) (dirs : List Path) (ht : ∀ x ∈ dirs, target fs resolve (join x name) = some (tgt x)) :
    ∀ s, Best fs d (dirs.map tgt) ((searchLoop fs name d resolve dirs s).2.image.map (·.file)) := by
  induction dirs with
  | nil => intro s; rfl
  | cons x dirs ih =>
    intro s
    unfold searchLoop
    rw [ht x (by simp)]
    simp only [List.map_cons, Best]
    have h := tryPath_provides hf s (tgt x) d
    generalize tryPath fs s (tgt x) d = r at h
    obtain ⟨s', t⟩ := r
    cases t with
    | found i => exact Or.inl ⟨i.file, rfl, (h _).1 rfl⟩
    | script i => exact Or.inl ⟨i.file, rfl, (h _).1 rfl⟩
    | next => exact Or.inr ⟨(fun f hp => nomatch (h f).2 hp), ih (fun y hy => ht y (by simp [hy])) s'⟩

theorem getImageInPath_best {fs : Files} (hf : ScriptsFit fs) {s : St} {paths : List Path} {name : Path} {d resolve : Bool} {tgt : Path → Path} (hc : (s.names d).get name = none)
    (ht : ∀ x ∈ paths, target fs resolve (join x name) = some (tgt x)) :
    Best fs d (paths.reverse.map tgt) ((getImageInPath fs s paths name d resolve).2.map (·.file)) := by
  unfold getImageInPath
  rw [hc]
  simp only
  have h := searchLoop_best hf name d resolve tgt paths.reverse (by simpa using ht) s
  generalize searchLoop fs name d resolve paths.reverse s = r at h
  obtain ⟨s', t⟩ := r
  cases t <;> exact h

end Pstack.Images
