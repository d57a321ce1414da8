import Verif.Proof.PythonStack
/-
Numbers of any size, dictionaries of Python 2, and what a new printer writes.
-/
namespace Pstack.Python
open Pstack.Spec

theorem typesOk_nil {cfg : Config} {mem : Mem} : TypesOk cfg mem newPrinter.types := by
  intro t x h
  cases h

theorem prints_of {cfg : Config} {mem : Mem} {a : Nat} {t : Text} {S' : List Nat} (h : Writes cfg mem 0 [] (fun n => print cfg mem n a) t S') : Prints cfg mem a t := by
  obtain ⟨N, st, h1, h2⟩ := h newPrinter rfl rfl typesOk_nil
  refine ⟨N, fun n hn => ⟨st, print_mono hn h1, ?_⟩⟩
  rw [h2.out]; rfl

/-! ### Numbers -/

theorem longLoop_wrap {m : Nat} (h : m < 2 ^ 90) : longLoop (pyDigits m) 0 0 = .ok (wrap64 m) := by
  by_cases h1 : m < 2 ^ 60
  · have hw : wrap64 (m : Int) = m := by unfold wrap64; omega
    rw [longLoop_digits m 0 0 (by omega) (by simp; omega), hw]
    simp only [Nat.mul_zero, Int.pow_zero, Int.mul_one, Int.zero_add]
  · have e1 : pyDigits m = m % 2 ^ 30 :: pyDigits (m / 2 ^ 30) := by rw [pyDigits, dif_neg (by omega)]
    have e2 : pyDigits (m / 2 ^ 30) = m / 2 ^ 30 % 2 ^ 30 :: pyDigits (m / 2 ^ 30 / 2 ^ 30) := by rw [pyDigits, dif_neg (by omega)]
    have e3 : pyDigits (m / 2 ^ 30 / 2 ^ 30) = m / 2 ^ 30 / 2 ^ 30 % 2 ^ 30 :: pyDigits (m / 2 ^ 30 / 2 ^ 30 / 2 ^ 30) := by rw [pyDigits, dif_neg (by omega)]
    have e4 : pyDigits (m / 2 ^ 30 / 2 ^ 30 / 2 ^ 30) = [] := by rw [pyDigits, dif_pos (by omega)]
    rw [e1, e2, e3, e4]
    have hd0 : m % 2 ^ 30 < 2 ^ 30 := Nat.mod_lt _ (by decide)
    have hd1 : m / 2 ^ 30 % 2 ^ 30 < 2 ^ 30 := Nat.mod_lt _ (by decide)
    have hd2 : m / 2 ^ 30 / 2 ^ 30 % 2 ^ 30 < 2 ^ 30 := Nat.mod_lt _ (by decide)
    have hm : m = m % 2 ^ 30 + (m / 2 ^ 30 % 2 ^ 30) * 2 ^ 30 + (m / 2 ^ 30 / 2 ^ 30 % 2 ^ 30) * 2 ^ 60 := by omega
    generalize m % 2 ^ 30 = d0 at *
    generalize m / 2 ^ 30 % 2 ^ 30 = d1 at *
    generalize m / 2 ^ 30 / 2 ^ 30 % 2 ^ 30 = d2 at *
    simp only [longLoop, Nat.mul_zero, Int.pow_zero, Int.mul_one, Int.zero_add, Nat.mul_one, Nat.reduceMul, Nat.reduceAdd, Nat.reduceLeDiff, if_false]
    have w0 : wrap64 (d0 : Int) = d0 := by unfold wrap64; omega
    have w1 : wrap64 ((d1 : Int) * 2 ^ 30) = d1 * 2 ^ 30 := by unfold wrap64; omega
    have w2 : wrap64 ((d2 : Int) * 2 ^ 60) + ((d0 : Int) + d1 * 2 ^ 30) = wrap64 m := by unfold wrap64; omega
    have f0 : fits64 (d0 : Int) = true := by unfold fits64; simp only [Bool.and_eq_true, decide_eq_true_eq]; omega
    have f1 : fits64 ((d0 : Int) + d1 * 2 ^ 30) = true := by unfold fits64; simp only [Bool.and_eq_true, decide_eq_true_eq]; omega
    have f2 : fits64 (wrap64 m) = true := by unfold fits64 wrap64; simp only [Bool.and_eq_true, decide_eq_true_eq]; omega
    rw [w0, w1, if_pos f0, if_pos f1, Int.add_comm _ (wrap64 _), w2, if_pos f2]

/-- What is printed for a number: the remainder in 64 bits, and nothing defined for the largest ones. -/
def printedLong (z : Int) : Res Int :=
  if 2 ^ 90 ≤ z.natAbs then .ub
  else if z < 0 then (if wrap64 z.natAbs = -(2 ^ 63) then .ub else .ok (-(wrap64 z.natAbs)))
  else .ok (wrap64 z)

theorem longValue_any {cfg : Config} {mem : Mem} {a : Nat} {z : Int} (h : LongAt cfg mem a z) :
    ∃ t ty size, ObjAt cfg mem a t ty size ∧ cfg.printers t = some .long ∧ ∀ buf, bytesAt mem a (objBytes ty size) = some buf → longValue buf = printedLong z := by
  obtain ⟨⟨ty, ⟨t, hobj, hpr⟩, hb, hi⟩, hdig⟩ := h
  refine ⟨t, ty, _, hobj, hpr, fun buf hbuf => ?_⟩
  generalize hsz : (if z < 0 then -((pyDigits z.natAbs).length : Int) else (pyDigits z.natAbs).length) = size at *
  have hlen : size.natAbs = (pyDigits z.natAbs).length := by rw [← hsz]; split <;> omega
  have hbytes : objBytes ty size = 24 + 4 * (pyDigits z.natAbs).length := by unfold objBytes; rw [hb, hi, hlen]
  have hsmall := hobj.small (by omega)
  rw [hbytes] at hbuf
  obtain ⟨x, hx1, hx2⟩ := intField_at (by omega) hbuf hobj.obSize (by omega)
  have hl := bytesAt_length hbuf
  have hnums : numbers 4 (pyDigits z.natAbs).length (buf.drop 24) = pyDigits z.natAbs := by
    apply numbers_eq
    intro i hi'
    rw [List.drop_drop]
    have hd' := hdig i hi'
    rw [Nat.add_assoc] at hd'
    exact num_at hbuf hd' (by omega)
  unfold longValue
  rw [hx1, Res.bind_ok]
  simp only [hx2]
  rw [if_neg (by omega), if_pos (by omega), hlen, hnums]
  unfold printedLong
  by_cases hbig : 2 ^ 90 ≤ z.natAbs
  · have hdl : 3 < (pyDigits z.natAbs).length := pyDigits_length_ge _ 3 hbig
    rw [if_pos hbig, longLoop_long _ _ _ (by intro e; rw [e] at hdl; simp at hdl) (by omega)]
    rfl
  · rw [if_neg hbig, longLoop_wrap (by omega), Res.bind_ok]
    by_cases hz : z < 0
    · have hs0 : size < 0 := by
        rw [if_pos hz] at hsz
        have : 0 < (pyDigits z.natAbs).length := pyDigits_length_ge _ 0 (by simp; omega)
        omega
      rw [if_pos hs0, if_pos hz]
      have hw : -(2 ^ 63) ≤ wrap64 z.natAbs ∧ wrap64 z.natAbs < 2 ^ 63 := by unfold wrap64; omega
      generalize wrap64 (z.natAbs : Int) = w at *
      by_cases hw0 : w = -(2 ^ 63)
      · rw [if_pos hw0, if_neg (by unfold fits64; simp only [Bool.and_eq_true, decide_eq_true_eq]; omega)]
      · rw [if_neg hw0, if_pos (by unfold fits64; simp only [Bool.and_eq_true, decide_eq_true_eq]; omega)]
        rfl
    · have hs0 : ¬ size < 0 := by
        rw [if_neg hz] at hsz
        omega
      rw [if_neg hs0, if_neg hz]
      have : (z.natAbs : Int) = z := by omega
      rw [this]
      rfl

theorem long_ok {cfg : Config} {mem : Mem} {a : Nat} {z v : Int} (h : LongAt cfg mem a z) (hv : printedLong z = .ok v) : Prints cfg mem a (toString v).toList := by
  obtain ⟨tp, ty, size, hobj, hpr, hl⟩ := longValue_any h
  refine prints_of (writes_leaf (k := .long) hobj (printerOf_some hpr) (by omega) (fun h => nomatch h) (fun buf hb => ?_))
  refine ⟨[.say (toString v).toList], ?_, fun pr st0 => rfl⟩
  show (Script.lift (longValue buf) >>= _) = _
  rw [hl buf hb, hv]
  rfl

theorem long_ub {cfg : Config} {mem : Mem} {a : Nat} {z : Int} (h : LongAt cfg mem a z) (hv : printedLong z = .ub) : PrintUndefined cfg mem a := by
  obtain ⟨tp, ty, size, hobj, hpr, hl⟩ := longValue_any h
  refine ⟨1, fun n hn => ?_⟩
  refine print_mono hn ?_
  obtain ⟨st1, buf, h1, h2, -⟩ := round_call hobj (printerOf_some hpr) { newPrinter with depth := newPrinter.depth + 1 } typesOk_nil (fun h => nomatch h)
  have hscr : script cfg mem ty buf a (newPrinter.depth + 1) .long = ⟨[], .ub⟩ := by
    show (Script.lift (longValue buf) >>= _) = _
    rw [hl buf h2, hv]
    rfl
  have h1' : round cfg mem a { newPrinter with depth := newPrinter.depth + 1 } = .call st1 ⟨[], .ub⟩ := by rw [h1, ← hscr]
  unfold print printWith
  rw [if_neg (by decide)]
  unfold loop
  rw [if_neg hobj.notNull, h1']
  rfl

/-! ### Dictionaries of Python 2 -/

end Pstack.Python
