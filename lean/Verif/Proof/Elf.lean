import Verif.Spec.Elf
import Verif.Proof.Window
import Verif.Proof.DwarfReader
import Verif.Props.Reader
namespace Pstack.Elf
open Pstack.Reader Pstack.Search Pstack.Spec Pstack.Dwarf

/-! ### Structures -/

theorem load_eq (bs : List Byte) : load bs = leNat bs := by
  induction bs with
  | nil => rfl
  | cons b bs ih => simp [load, leNat, ih]

theorem field_at (xs ys : List Byte) (off n v : Nat) (h : xs.length = off) (hv : v < 256 ^ n) :
    field (xs ++ (leBytes n v ++ ys)) off n = v := by
  unfold field
  rw [load_eq, List.drop_left' h, List.take_left' (leBytes_length n v), leNat_leBytes, Nat.mod_eq_of_lt hv]

theorem phdrBytes_length (p : Phdr) : (phdrBytes p).length = 56 := by simp [phdrBytes, leBytes_length]
theorem symBytes_length (s : Sym) : (symBytes s).length = 24 := by simp [symBytes, leBytes_length]

theorem phdr_decode (p : Phdr) (h : PhdrFits p) : Phdr.decode (phdrBytes p) = p := by
  obtain ⟨h1, h2, h3, h4, h5, h6, h7, h8⟩ := h
  cases p with
  | mk a b c d e f g i =>
    simp only at h1 h2 h3 h4 h5 h6 h7 h8
    unfold Phdr.decode phdrBytes
    simp only [List.append_assoc, Phdr.mk.injEq]
    refine ⟨field_at [] _ 0 4 a rfl h1, ?_, ?_, ?_, ?_, ?_, ?_, ?_⟩
    · exact field_at (leBytes 4 a) _ 4 4 b (leBytes_length ..) h2
    · rw [← List.append_assoc]; exact field_at _ _ 8 8 c (by simp [leBytes_length]) h3
    · rw [← List.append_assoc, ← List.append_assoc]; exact field_at _ _ 16 8 d (by simp [leBytes_length]) h4
    · rw [← List.append_assoc, ← List.append_assoc, ← List.append_assoc]; exact field_at _ _ 24 8 e (by simp [leBytes_length]) h5
    · rw [← List.append_assoc, ← List.append_assoc, ← List.append_assoc, ← List.append_assoc]
      exact field_at _ _ 32 8 f (by simp [leBytes_length]) h6
    · rw [← List.append_assoc, ← List.append_assoc, ← List.append_assoc, ← List.append_assoc, ← List.append_assoc]
      exact field_at _ _ 40 8 g (by simp [leBytes_length]) h7
    · rw [← List.append_assoc, ← List.append_assoc, ← List.append_assoc, ← List.append_assoc, ← List.append_assoc,
        ← List.append_assoc]
      have := field_at (leBytes 4 a ++ leBytes 4 b ++ leBytes 8 c ++ leBytes 8 d ++ leBytes 8 e ++ leBytes 8 f ++ leBytes 8 g)
        [] 48 8 i (by simp [leBytes_length]) h8
      simpa using this

theorem sym_decode (s : Sym) (h : SymFits s) : Sym.decode (symBytes s) = s := by
  obtain ⟨h1, h2, h3, h4, h5, h6⟩ := h
  cases s with
  | mk a b c d e f =>
    simp only at h1 h2 h3 h4 h5 h6
    unfold Sym.decode symBytes
    simp only [List.append_assoc, Sym.mk.injEq]
    refine ⟨field_at [] _ 0 4 a rfl h1, ?_, ?_, ?_, ?_, ?_⟩
    · exact field_at (leBytes 4 a) _ 4 1 b (leBytes_length ..) h2
    · rw [← List.append_assoc]; exact field_at _ _ 5 1 c (by simp [leBytes_length]) h3
    · rw [← List.append_assoc, ← List.append_assoc]; exact field_at _ _ 6 2 d (by simp [leBytes_length]) h4
    · rw [← List.append_assoc, ← List.append_assoc, ← List.append_assoc]; exact field_at _ _ 8 8 e (by simp [leBytes_length]) h5
    · rw [← List.append_assoc, ← List.append_assoc, ← List.append_assoc, ← List.append_assoc]
      have := field_at (leBytes 4 a ++ leBytes 1 b ++ leBytes 1 c ++ leBytes 2 d ++ leBytes 8 e) [] 16 8 f
        (by simp [leBytes_length]) h6
      simpa using this

/-! ### Arrays of structures on readers -/

theorem iterate_congr (rd rd' : Nat → Nat → Res (List Byte)) (base sz K : Nat) (h : ∀ off, rd off (K * sz) = rd' off (K * sz)) :
    ∀ n w idx, iterate rd base sz K n w idx = iterate rd' base sz K n w idx := by
  intro n
  induction n with
  | zero => intro w idx; rfl
  | succ n ih =>
    intro w idx
    have hg : w.getitem rd base sz K idx = w.getitem rd' base sz K idx := by
      unfold ArrWin.getitem; rw [h]
    unfold iterate
    rw [hg]
    simp only [ih]

theorem read_beyond (r : Rdr) (hw : r.WF) (off count : Nat) (h : r.size < off) :
    r.read off count = .exc ∨ r.read off count = .ok [] := by
  cases r with
  | mem buf st sz => left; unfold Rdr.read; simp [Rdr.size] at h; simp [h]
  | file d => right; simp [Rdr.size] at h; simp [Rdr.read, List.drop_eq_nil_of_le (Nat.le_of_lt h)]
  | null => left; rfl
  | window up o l => left; simp [Rdr.size] at h; unfold Rdr.read; simp [h]

theorem flatten_drop_take (sz : Nat) (es : List (List Byte)) : ∀ i e, (∀ e ∈ es, e.length = sz) → es[i]? = some e →
    (es.flatten.drop (i * sz)).take sz = e := by
  induction es with
  | nil => intro i e _ h; simp at h
  | cons x es ih =>
    intro i e hl h
    have hx := hl x (by simp)
    cases i with
    | zero =>
      simp only [List.getElem?_cons_zero, Option.some.injEq] at h
      subst h
      simp only [List.flatten_cons, Nat.zero_mul, List.drop_zero]
      exact List.take_left' hx
    | succ i =>
      simp only [List.getElem?_cons_succ] at h
      rw [List.flatten_cons, Nat.succ_mul, Nat.add_comm, ← hx, ← List.drop_drop, List.drop_left, hx]
      exact ih i e (fun e he => hl e (by simp [he])) h

theorem flatten_length (sz : Nat) (es : List (List Byte)) (hl : ∀ e ∈ es, e.length = sz) : es.flatten.length = es.length * sz := by
  induction es with
  | nil => simp
  | cons x es ih =>
    rw [List.flatten_cons, List.length_append, ih (fun e he => hl e (by simp [he])), hl x (by simp), List.length_cons, Nat.succ_mul]
    omega

/-- Iterating an array over any well-formed reader gives the elements its bytes consist of. -/
theorem readerArray_rdr (r : Rdr) (h : r.WF) (sz K : Nat) (hsz : 0 < sz) (hK : 0 < K) (hfit : r.size + K * sz < W64)
    (es : List (List Byte)) (hes : r.content = es.flatten) (hl : ∀ e ∈ es, e.length = sz) :
    readerArray r.read r.size 0 sz K = .ok es := by
  obtain ⟨hlen, _⟩ := content_length r h
  let rd' : Nat → Nat → Res (List Byte) := fun off count =>
    if count = K * sz then r.read off count else if off ≤ r.size then .ok ((r.content.drop off).take count) else .exc
  have hs : ServesList rd' r.content := by
    refine ⟨?_, ?_⟩
    · intro off count ho
      show (if count = K * sz then r.read off count else if off ≤ r.size then .ok ((r.content.drop off).take count) else .exc) = _
      rw [hlen] at ho
      by_cases hc : count = K * sz
      · rw [if_pos hc]
        exact read_content r h off count ho (by omega)
      · rw [if_neg hc, if_pos ho]
    · intro off count ho
      show (if count = K * sz then r.read off count else if off ≤ r.size then .ok ((r.content.drop off).take count) else .exc) = _ ∨ _
      rw [hlen] at ho
      by_cases hc : count = K * sz
      · have := read_beyond r h off count ho
        rcases this with h1 | h1
        · left; rw [if_pos hc, h1]
        · right
          show (if count = K * sz then r.read off count else if off ≤ r.size then .ok ((r.content.drop off).take count) else .exc) = _
          rw [if_pos hc, h1]
      · left; rw [if_neg hc, if_neg (by omega)]
  have hmul : r.content.length = es.length * sz := by rw [hes]; exact flatten_length sz es hl
  have hC := Pstack.Props.C05_array_iterates_all rd' r.content hs 0 sz K hsz hK
    (by have := Nat.mul_le_mul hK hsz; rw [hlen, ← W64_eq]; omega) (Nat.zero_le _) (by rw [hmul]; exact Nat.mul_mod_left _ _)
  have e : readerArray r.read r.size 0 sz K = readerArray rd' r.content.length 0 sz K := by
    unfold readerArray
    rw [hlen]
    congr 1
    apply iterate_congr
    intro off
    show _ = (if K * sz = K * sz then r.read off (K * sz) else _)
    rw [if_pos rfl]
  rw [e, hC]
  congr 1
  apply List.ext_getElem?
  intro i
  rw [List.getElem?_map, hmul, Nat.sub_zero, Nat.mul_div_cancel _ hsz]
  by_cases hi : i < es.length
  · rw [List.getElem?_range hi, Option.map_some, Nat.zero_add, hes]
    rw [List.getElem?_eq_getElem hi]
    rw [flatten_drop_take sz es i _ hl (List.getElem?_eq_getElem hi)]
  · rw [List.getElem?_eq_none (by simp; omega), List.getElem?_eq_none (by omega)]
    rfl

end Pstack.Elf
