import Verif.Model.Flags
/-
C42: command line options.
-/
namespace Pstack.Props
open Pstack.Flags

variable {κ : Type}

/-- A set of options as a program should register them: names differ, short forms (where there are any) differ and are letters or
other printable characters that `getopt` gives no meaning to. -/
structure Registers (ds : List (Decl κ)) : Prop where
  names : ds.Pairwise fun a b => a.name ≠ b.name
  shorts : ds.Pairwise fun a b => a.flag ≠ 0 → a.flag ≠ b.flag
  printable : ∀ d ∈ ds, d.flag = 0 ∨ (33 ≤ d.flag ∧ d.flag ≤ 126 ∧ d.flag ≠ 58 ∧ d.flag ≠ 63)

/-- State after registering `ds`. -/
structure Inv (f : Flags κ) (ds : List (Decl κ)) : Prop where
  low : f.longVal ≤ -2
  every : ∀ d ∈ ds, ∃ c, ⟨d.name, d.metavar, c⟩ ∈ f.longOptions ∧ (c, d.cb) ∈ f.data ∧ (d.flag ≠ 0 → c = d.flag) ∧ (d.flag = 0 → f.longVal ≤ c ∧ c < -2)
  opts : ∀ o ∈ f.longOptions, ∃ d ∈ ds, o.name = d.name ∧ o.hasArg = d.metavar ∧ ((d.flag ≠ 0 ∧ o.val = d.flag) ∨ (d.flag = 0 ∧ f.longVal ≤ o.val ∧ o.val < -2))
  onames : f.longOptions.Pairwise fun a b => a.name ≠ b.name
  ovals : f.longOptions.Pairwise fun a b => a.val ≠ b.val
  keys : ∀ e ∈ f.data, (∃ d ∈ ds, d.flag ≠ 0 ∧ d.flag = e.1) ∨ (f.longVal ≤ e.1 ∧ e.1 < -2)
  distinct : f.data.Pairwise fun a b => a.1 ≠ b.1

theorem find_none (f : Flags κ) (c : Int) : (f.find c).isSome = false ↔ ∀ e ∈ f.data, e.1 ≠ c := by
  unfold Flags.find
  rw [Option.isSome_map, Bool.eq_false_iff, ne_eq, Option.isSome_iff_ne_none, Decidable.not_not, List.find?_eq_none]
  simp

theorem inv_add (f : Flags κ) (ds : List (Decl κ)) (d : Decl κ) (hi : Inv f ds)
    (hp : ∀ x ∈ ds ++ [d], x.flag = 0 ∨ (33 ≤ x.flag ∧ x.flag ≤ 126 ∧ x.flag ≠ 58 ∧ x.flag ≠ 63))
    (hn : ∀ x ∈ ds, x.name ≠ d.name) (hs : ∀ x ∈ ds, x.flag ≠ 0 → x.flag ≠ d.flag) :
    ∃ f', add f d.name d.flag d.metavar d.cb = .ok f' ∧ Inv f' (ds ++ [d]) := by
  have hlow := hi.low
  have hpd := hp d (by simp)
  have hpos : ∀ x ∈ ds, x.flag ≠ 0 → 33 ≤ x.flag := fun x hx h0 => by
    have := hp x (List.mem_append_left _ hx); omega
  obtain ⟨lv, hlv⟩ : ∃ lv, lv = (if d.flag = 0 then f.longVal - 1 else f.longVal) := ⟨_, rfl⟩
  obtain ⟨c, hc⟩ : ∃ c, c = (if d.flag = 0 then lv else d.flag) := ⟨_, rfl⟩
  have hfresh : ∀ e ∈ f.data, e.1 ≠ c := by
    intro e he hec
    rcases hi.keys e he with ⟨x, hx, hx0, hxe⟩ | ⟨h1, h2⟩
    · have := hpos x hx hx0
      have := hs x hx hx0
      split at hc <;> split at hlv <;> omega
    · split at hc <;> split at hlv <;> omega
  have hle : lv ≤ f.longVal := by split at hlv <;> omega
  have hadd : add f d.name d.flag d.metavar d.cb =
      .ok { f with longOptions := f.longOptions ++ [⟨d.name, d.metavar, c⟩], data := (c, d.cb) :: f.data, longVal := lv } := by
    unfold add
    simp only []
    rw [← hlv, ← hc, if_neg]
    rw [(find_none f c).2 hfresh]; decide
  have hc2 : (d.flag ≠ 0 ∧ c = d.flag) ∨ (d.flag = 0 ∧ lv ≤ c ∧ c < -2) := by
    by_cases h : d.flag = 0
    · rw [if_pos h] at hc hlv; right; exact ⟨h, by omega, by omega⟩
    · rw [if_neg h] at hc; left; exact ⟨h, hc⟩
  refine ⟨_, hadd, ⟨by simp only []; split at hlv <;> omega, ?_, ?_, ?_, ?_, ?_, ?_⟩⟩
  · intro x hx
    rcases List.mem_append.1 hx with hx | hx
    · obtain ⟨y, h1, h2, h3, h4⟩ := hi.every x hx
      refine ⟨y, List.mem_append_left _ h1, List.mem_cons_of_mem _ h2, h3, ?_⟩
      intro h; have := h4 h; simp only []; omega
    · simp at hx; subst hx
      refine ⟨c, by simp, by simp, ?_, ?_⟩
      · intro h; omega
      · intro h; simp only []; omega
  · intro o ho
    rcases List.mem_append.1 ho with ho | ho
    · obtain ⟨y, h1, h2, h3, h4⟩ := hi.opts o ho
      refine ⟨y, List.mem_append_left _ h1, h2, h3, ?_⟩
      simp only []; omega
    · simp at ho; subst ho
      exact ⟨d, by simp, rfl, rfl, hc2⟩
  · rw [List.pairwise_append]
    refine ⟨hi.onames, by simp, ?_⟩
    intro a ha b hb
    simp at hb; subst hb
    obtain ⟨y, h1, h2, _⟩ := hi.opts a ha
    rw [h2]; exact hn y h1
  · rw [List.pairwise_append]
    refine ⟨hi.ovals, by simp, ?_⟩
    intro a ha b hb
    simp at hb; subst hb
    obtain ⟨y, h1, h2, _, h4⟩ := hi.opts a ha
    simp only []
    by_cases h : y.flag = 0
    · split at hc <;> split at hlv <;> omega
    · have := hpos y h1 h
      have := hs y h1 h
      omega
  · intro e he
    rcases List.mem_cons.1 he with rfl | he
    · rcases hc2 with ⟨h1, h2⟩ | ⟨_, h2, h3⟩
      · left; exact ⟨d, by simp, h1, h2.symm⟩
      · right; exact ⟨h2, h3⟩
    · rcases hi.keys e he with ⟨x, h1, h2, h3⟩ | ⟨h1, h2⟩
      · left; exact ⟨x, List.mem_append_left _ h1, h2, h3⟩
      · right; simp only []; omega
  · rw [List.pairwise_cons]
    exact ⟨fun e he => (hfresh e he).symm, hi.distinct⟩

theorem addAll_inv : ∀ (ds pre : List (Decl κ)) (f : Flags κ), Inv f pre → Registers (pre ++ ds) → ∃ f', addAll f ds = .ok f' ∧ Inv f' (pre ++ ds)
  | [], pre, f, hi, _ => ⟨f, rfl, by simpa using hi⟩
  | d :: ds, pre, f, hi, hr => by
    have e : pre ++ d :: ds = (pre ++ [d]) ++ ds := by simp
    have hr' := hr
    rw [e] at hr'
    obtain ⟨f1, h1, h2⟩ := inv_add f pre d hi (fun x hx => hr'.printable x (List.mem_append_left _ hx))
      (fun x hx => (List.pairwise_append.1 hr.names).2.2 x hx d List.mem_cons_self)
      (fun x hx => (List.pairwise_append.1 hr.shorts).2.2 x hx d List.mem_cons_self)
    obtain ⟨f2, h3, h4⟩ := addAll_inv ds (pre ++ [d]) f1 h2 hr'
    exact ⟨f2, by rw [addAll, h1, Res.bind_ok]; exact h3, by rw [e]; exact h4⟩

theorem find_data (f : Flags κ) (ds : List (Decl κ)) (hi : Inv f ds) (c : Int) (cb : κ) (h : (c, cb) ∈ f.data) : f.find c = some cb := by
  unfold Flags.find
  have := hi.distinct
  revert this h
  generalize f.data = l
  intro h hd
  induction l with
  | nil => cases h
  | cons x l ih =>
    have hd' := List.pairwise_cons.1 hd
    rcases List.mem_cons.1 h with hx | hx
    · subst hx; simp
    · have : x.1 ≠ c := fun hh => hd'.1 _ hx hh
      rw [List.find?_cons]
      simp only [this, decide_false]
      exact ih hx hd'.2

theorem find_name (l : List LongOpt) (o : LongOpt) (ho : o ∈ l) (hd : l.Pairwise fun a b => a.name ≠ b.name) :
    l.find? (·.name = o.name) = some o := by
  induction l with
  | nil => cases ho
  | cons x l ih =>
    have hd' := List.pairwise_cons.1 hd
    rcases List.mem_cons.1 ho with hx | hx
    · subst hx; simp
    · have : x.name ≠ o.name := fun hh => hd'.1 _ hx hh
      rw [List.find?_cons]
      simp only [this, decide_false]
      exact ih hx hd'.2

/-- The part of the short option string due to a list of options. -/
def shortOf (l : List LongOpt) : List Char :=
  (l.map fun o => if o.val > 0 then Char.ofNat o.val.toNat :: (if o.hasArg then [':'] else []) else []).flatten

def ValidVal (o : LongOpt) : Prop := o.val < 0 ∨ (33 ≤ o.val ∧ o.val ≤ 126 ∧ o.val ≠ 58 ∧ o.val ≠ 63)

theorem ofNat_toNat (n : Nat) (h : n < 128) : (Char.ofNat n).toNat = n := by
  rw [Char.ofNat, dif_pos (Or.inl (by omega))]; rfl

theorem shortOf_head (l : List LongOpt) (hv : ∀ o ∈ l, ValidVal o) : ∀ c t, shortOf l = c :: t → c ≠ ':' := by
  induction l with
  | nil => intro c t h; cases h
  | cons o l ih =>
    intro c t h
    have e : shortOf (o :: l) = (if o.val > 0 then Char.ofNat o.val.toNat :: (if o.hasArg then [':'] else []) else []) ++ shortOf l := by simp [shortOf]
    rw [e] at h
    have hvo := hv o List.mem_cons_self
    unfold ValidVal at hvo
    split at h
    · rw [List.cons_append] at h
      injection h with h1 h2
      subst h1
      intro hh
      have := congrArg Char.toNat hh
      rw [ofNat_toNat _ (by omega)] at this
      simp at this; omega
    · exact ih (fun x hx => hv x (List.mem_cons_of_mem _ hx)) c t h

theorem short_lookup (l : List LongOpt) (o : LongOpt) (ho : o ∈ l) (hpos : 0 < o.val) (hd : l.Pairwise fun a b => a.val ≠ b.val) (hv : ∀ o ∈ l, ValidVal o) :
    ∃ t, (∀ x ∈ t, ValidVal x) ∧ (shortOf l).dropWhile (· ≠ Char.ofNat o.val.toNat) = Char.ofNat o.val.toNat :: ((if o.hasArg then [':'] else []) ++ shortOf t) := by
  induction l with
  | nil => cases ho
  | cons x l ih =>
    have hd' := List.pairwise_cons.1 hd
    have e : shortOf (x :: l) = (if x.val > 0 then Char.ofNat x.val.toNat :: (if x.hasArg then [':'] else []) else []) ++ shortOf l := by simp [shortOf]
    have hvl : ∀ o ∈ l, ValidVal o := fun y hy => hv y (List.mem_cons_of_mem _ hy)
    rcases List.mem_cons.1 ho with hx | hx
    · subst hx
      refine ⟨l, hvl, ?_⟩
      rw [e, if_pos hpos, List.cons_append, List.dropWhile_cons, if_neg (by simp)]
    · obtain ⟨t, ht, h⟩ := ih hx hd'.2 hvl
      refine ⟨t, ht, ?_⟩
      have hvx := hv x List.mem_cons_self
      have hvo := hvl o hx
      have hne := hd'.1 o hx
      unfold ValidVal at hvx hvo
      rw [e]
      split
      · have hcne : Char.ofNat x.val.toNat ≠ Char.ofNat o.val.toNat := by
          intro hh
          have := congrArg Char.toNat hh
          rw [ofNat_toNat _ (by omega), ofNat_toNat _ (by omega)] at this
          omega
        have hcol : (':' : Char) ≠ Char.ofNat o.val.toNat := by
          intro hh
          have := congrArg Char.toNat hh.symm
          rw [ofNat_toNat o.val.toNat (by omega)] at this
          simp at this; omega
        rw [List.cons_append, List.dropWhile_cons, if_pos (by simpa using hcne)]
        split
        · rw [List.cons_append, List.dropWhile_cons, if_pos (by simpa using hcol)]
          exact h
        · exact h
      · exact h

theorem validVals (f : Flags κ) (ds : List (Decl κ)) (hi : Inv f ds) (hr : Registers ds) : ∀ o ∈ f.longOptions, ValidVal o := by
  intro o ho
  obtain ⟨d, h1, _, _, h4⟩ := hi.opts o ho
  have := hr.printable d h1
  unfold ValidVal
  omega

/-- C42. Whatever options are registered, registration succeeds, and every option given on the command line - in its long form or
in its short form, if it has one - runs its own handler, with an argument exactly if it was registered with one. -/
theorem C42_dispatch (ds : List (Decl κ)) (hr : Registers ds) :
    ∃ f, addAll {} ds = .ok f ∧ ∀ d ∈ ds,
      parseOne (done f) (.long d.name) = .ok (d.cb, d.metavar) ∧
      (d.flag ≠ 0 → parseOne (done f) (.short (Char.ofNat d.flag.toNat)) = .ok (d.cb, d.metavar)) := by
  obtain ⟨f, h1, hi⟩ := addAll_inv ds [] {} ⟨Int.le_refl _, by simp, by simp, List.Pairwise.nil, List.Pairwise.nil, by simp, List.Pairwise.nil⟩ hr
  rw [List.nil_append] at hi
  refine ⟨f, h1, ?_⟩
  intro d hd
  obtain ⟨c, h2, h3, h4, h5⟩ := hi.every d hd
  have hp := hr.printable d hd
  have hfind := find_data f ds hi c d.cb h3
  have hc63 : c ≠ 63 := by
    by_cases h : d.flag = 0
    · have := h5 h; omega
    · have := h4 h; omega
  constructor
  · have hg : getopt (done f) (.long d.name) = (c, d.metavar) := by
      have := find_name _ ⟨d.name, d.metavar, c⟩ h2 hi.onames
      simp only [getopt, done]
      rw [this]
    unfold parseOne
    rw [hg]
    simp only []
    rw [if_neg hc63]
    show (match f.find c with | some cb => Res.ok (cb, d.metavar) | none => Res.exc) = _
    rw [hfind]
  · intro hflag
    have hc := h4 hflag
    subst hc
    obtain ⟨t, ht1, ht⟩ := short_lookup f.longOptions ⟨d.name, d.metavar, d.flag⟩ h2 (by simp only []; omega) hi.ovals (validVals f ds hi hr)
    have htn : (Char.ofNat d.flag.toNat).toNat = d.flag.toNat := ofNat_toNat _ (by omega)
    have hcol : Char.ofNat d.flag.toNat ≠ ':' := by
      intro hh
      have := congrArg Char.toNat hh
      rw [htn] at this
      simp at this; omega
    have hg : getopt (done f) (.short (Char.ofNat d.flag.toNat)) = (d.flag, d.metavar) := by
      unfold getopt
      simp only []
      rw [if_neg hcol]
      have e : (done f).shortOptions = shortOf f.longOptions := rfl
      rw [e, ht, htn, show ((d.flag.toNat : Nat) : Int) = d.flag by omega]
      cases hm : d.metavar with
      | true => simp
      | false =>
        simp only [Bool.false_eq_true, if_false, List.nil_append]
        cases hs : shortOf t with
        | nil => rfl
        | cons x xs =>
          have := shortOf_head t ht1 x xs hs
          split
          · rename_i heq; injection heq
          · rename_i heq; injection heq with a b; injection b with b1 b2; exact absurd b1 this
          · rfl
    unfold parseOne
    rw [hg]
    simp only []
    rw [if_neg hc63]
    show (match f.find d.flag with | some cb => Res.ok (cb, d.metavar) | none => Res.exc) = _
    rw [hfind]

/-- C42: a name that no option has is rejected, and runs no handler. -/
theorem C42_unknown (ds : List (Decl κ)) (hr : Registers ds) (name : String) (hn : ∀ d ∈ ds, d.name ≠ name) :
    ∃ f, addAll {} ds = .ok f ∧ parseOne (done f) (.long name) = .exc := by
  obtain ⟨f, h1, hi⟩ := addAll_inv ds [] {} ⟨Int.le_refl _, by simp, by simp, List.Pairwise.nil, List.Pairwise.nil, by simp, List.Pairwise.nil⟩ hr
  rw [List.nil_append] at hi
  refine ⟨f, h1, ?_⟩
  have : f.longOptions.find? (·.name = name) = none := by
    rw [List.find?_eq_none]
    intro o ho
    obtain ⟨d, h2, h3, _⟩ := hi.opts o ho
    simp only [decide_eq_true_iff]
    rw [h3]; exact hn d h2
  unfold parseOne getopt
  simp only [done, this]
  rfl

/-- C42: giving two options the same short form is not accepted silently. -/
theorem C42_duplicate (a b : Decl κ) (h0 : a.flag ≠ 0) (h : a.flag = b.flag) : addAll {} [a, b] = .abort := by
  simp [addAll, add, Flags.find, h0, ← h]

/-- The hypotheses of C42 hold of a set with short and long-only options. -/
theorem C42_example : Registers [⟨"verbose", 118, false, 1⟩, ⟨"debug-dir", 103, true, 2⟩, ⟨"version", 0, false, 3⟩, ⟨"html", 0, true, (4 : Nat)⟩] := by
  constructor
  · simp [List.pairwise_cons]
  · simp [List.pairwise_cons]
  · intro d hd; simp at hd; rcases hd with rfl | rfl | rfl | rfl <;> simp

end Pstack.Props
