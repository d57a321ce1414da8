import Verif.Proof.Reader
import Verif.Spec.RdrContent
namespace Pstack.Reader
open Pstack.Spec

theorem content_length (r : Rdr) (h : r.WF) : r.content.length = r.size ∧ r.size < W64 := by
  induction r with
  | mem buf start size => simp [Rdr.WF] at h; simp [Rdr.content, Rdr.size]; omega
  | file data => simp [Rdr.WF] at h; simp [Rdr.content, Rdr.size]; omega
  | null => simp [Rdr.WF] at h
  | window up offset length ih =>
    obtain ⟨h1, h2⟩ := h
    have := ih h1
    simp [Rdr.content, Rdr.size] at *; omega

theorem read_content (r : Rdr) (h : r.WF) (off count : Nat) (hoff : off ≤ r.size) (hc : off + count < W64) :
    r.read off count = .ok ((r.content.drop off).take count) := by
  induction r generalizing off count with
  | mem buf start size =>
    simp only [Rdr.WF] at h
    simp only [Rdr.size] at hoff
    simp only [Rdr.read, Rdr.content]
    rw [if_neg (by omega), if_pos (by omega)]
    congr 1
    rw [List.drop_take, List.take_take, List.drop_drop]
  | file data => simp [Rdr.read, Rdr.content]
  | null => simp [Rdr.WF] at h
  | window up offset length ih =>
    obtain ⟨h1, h2⟩ := h
    have hl := content_length up h1
    simp only [Rdr.size] at hoff
    simp only [Rdr.read, Rdr.content]
    rw [if_neg (by omega), Nat.mod_eq_of_lt hc, Nat.mod_eq_of_lt (by omega)]
    by_cases hgt : off + count > length
    · rw [if_pos hgt, ih h1 _ _ (by omega) (by omega)]
      congr 1
      rw [List.drop_take, List.take_take, List.drop_drop, Nat.add_comm off offset]
      congr 1; omega
    · rw [if_neg hgt, List.drop_take, List.take_take, List.drop_drop, Nat.add_comm off offset,
        Nat.min_eq_left (by omega)]
      by_cases hw : off + offset + count < W64
      · rw [Nat.add_comm offset off, ih h1 _ _ (by omega) hw]
      · exfalso; omega

theorem view_content (r : Rdr) (h : r.WF) (start length : Nat) (hl : length ≠ maxOff) (hb : start + length ≤ r.size) :
    (r.view start length).WF ∧ (r.view start length).content = (r.content.drop start).take length := by
  induction r generalizing start length with
  | mem buf st size =>
    simp only [Rdr.WF, Rdr.size] at h hb
    simp only [Rdr.view, Rdr.WF, Rdr.content]
    refine ⟨by omega, ?_⟩
    rw [List.drop_take, List.take_take, List.drop_drop, Nat.min_eq_left (by omega)]
  | file data =>
    simp only [Rdr.view, hl, if_false]
    exact ⟨⟨h, hb⟩, rfl⟩
  | null => simp [Rdr.WF] at h
  | window up offset len ih =>
    obtain ⟨h1, h2⟩ := h
    have hu := content_length up h1
    simp only [Rdr.size] at hb
    simp only [Rdr.view, Rdr.content]
    rw [Nat.mod_eq_of_lt (by omega)]
    obtain ⟨i1, i2⟩ := ih h1 (offset + start) length hl (by omega)
    refine ⟨i1, ?_⟩
    rw [i2, List.drop_take, List.take_take, List.drop_drop, Nat.min_eq_left (by omega)]

/-! ### strings -/

theorem readStringLoop_content (rd : Nat → Res (List Byte)) (m : Mem) (n : Nat) :
    ∀ off, (∀ o, off ≤ o → o < off + n → rd o = .ok (slice m o 1)) →
      readStringLoop rd n off = .ok ((slice m off n).takeWhile (· ≠ 0#8)) := by
  induction n with
  | zero => intro off _; simp [readStringLoop, slice]
  | succ n ih =>
    intro off h
    unfold readStringLoop
    rw [h off (Nat.le_refl _) (by omega), slice_succ m off n, slice_succ m off 0]
    cases hm : m off with
    | none => simp
    | some b =>
      simp only [slice]
      by_cases hb0 : b = 0#8
      · simp [hb0]
      · simp only [hb0, if_false]
        rw [ih (off + 1) (fun o h1 h2 => h o (by omega) (by omega))]
        simp [List.takeWhile_cons_of_pos, hb0]

/-! ### arrays -/

theorem cut_length (sz n : Nat) (bs : List Byte) : (cut sz n bs).length = n := by
  induction n generalizing bs with
  | zero => rfl
  | succ n ih => simp [cut, ih]

theorem cut_get (sz n : Nat) (bs : List Byte) (i : Nat) (h : i < n) :
    (cut sz n bs)[i]? = some ((bs.drop (i * sz)).take sz) := by
  induction n generalizing bs i with
  | zero => omega
  | succ n ih =>
    cases i with
    | zero => simp [cut]
    | succ i =>
      simp only [cut, List.getElem?_cons_succ]
      rw [ih _ _ (by omega), List.drop_drop, Nat.succ_mul, Nat.add_comm sz]

/-- The window holds true elements, all of them inside the data. -/
def WinOK (data : List Byte) (base sz : Nat) (w : ArrWin) : Prop :=
  ∀ i, i < w.items.length → w.items[i]? = some (element data base sz (w.start + i)) ∧
    base + (w.start + i + 1) * sz ≤ data.length

theorem getitem_spec (rd : Nat → Nat → Res (List Byte)) (data : List Byte) (hrd : ServesList rd data) (base sz K : Nat)
    (hsz : 0 < sz) (hK : 0 < K) (w : ArrWin) (hw : WinOK data base sz w) (idx : Nat) :
    WinOK data base sz (w.getitem rd base sz K idx).1 ∧
    (w.getitem rd base sz K idx).2 =
      if base + (idx + 1) * sz ≤ data.length then .ok (element data base sz idx) else .exc := by
  unfold ArrWin.getitem
  have hmul : (idx + 1) * sz = idx * sz + sz := by rw [Nat.add_mul, Nat.one_mul]
  by_cases hmiss : w.start > idx ∨ idx ≥ w.start + w.items.length
  · simp only [hmiss, if_true]
    by_cases hin : idx * sz + base ≤ data.length
    · rw [hrd.1 _ _ hin]
      dsimp only
      have hlen : ((data.drop (idx * sz + base)).take (K * sz)).length = min (K * sz) (data.length - (idx * sz + base)) := by simp
      have hKsz : sz ≤ K * sz := Nat.le_mul_of_pos_left sz hK
      by_cases hshort : ((data.drop (idx * sz + base)).take (K * sz)).length < sz
      · rw [if_pos hshort]
        refine ⟨?_, ?_⟩
        · intro i hi
          rw [cut_length, Nat.div_eq_of_lt hshort] at hi; omega
        · rw [if_neg]; rw [hlen] at hshort; omega
      · rw [if_neg hshort]
        have hcnt : ((data.drop (idx * sz + base)).take (K * sz)).length / sz * sz ≤
            ((data.drop (idx * sz + base)).take (K * sz)).length := Nat.div_mul_le_self _ _
        have hpos : 0 < ((data.drop (idx * sz + base)).take (K * sz)).length / sz := Nat.div_pos (by omega) hsz
        have helem : ∀ i, i < ((data.drop (idx * sz + base)).take (K * sz)).length / sz →
            (cut sz (((data.drop (idx * sz + base)).take (K * sz)).length / sz) ((data.drop (idx * sz + base)).take (K * sz)))[i]?
              = some (element data base sz (idx + i)) ∧ base + (idx + i + 1) * sz ≤ data.length := by
          intro i hi
          have h1 : (i + 1) * sz ≤ ((data.drop (idx * sz + base)).take (K * sz)).length :=
            Nat.le_trans (Nat.mul_le_mul_right sz hi) hcnt
          rw [hlen] at h1
          rw [Nat.add_mul, Nat.one_mul] at h1
          have e1 : (idx + i) * sz = idx * sz + i * sz := by rw [Nat.add_mul]
          have e2 : (idx + i + 1) * sz = idx * sz + i * sz + sz := by rw [Nat.add_mul, Nat.add_mul, Nat.one_mul]
          refine ⟨?_, by rw [e2]; omega⟩
          rw [cut_get _ _ _ _ hi]
          unfold element
          rw [List.drop_take, List.drop_drop, List.take_take, e1]
          congr 1
          rw [Nat.min_eq_left (by omega)]
          congr 2; omega
        refine ⟨?_, ?_⟩
        · intro i hi
          rw [cut_length] at hi
          exact helem i hi
        · rw [Nat.sub_self, (helem 0 hpos).1, if_pos]
          · rfl
          · have := (helem 0 hpos).2; simpa using this
    · have hno : ¬ (base + (idx + 1) * sz ≤ data.length) := by rw [hmul]; omega
      rw [if_neg hno]
      rcases hrd.2 (idx * sz + base) (K * sz) (by omega) with h | h
      · rw [h]; exact ⟨hw, rfl⟩
      · rw [h]
        dsimp only
        rw [if_pos (by simpa using hsz)]
        refine ⟨?_, rfl⟩
        intro i hi; rw [cut_length] at hi; simp at hi
  · simp only [hmiss, if_false]
    refine ⟨hw, ?_⟩
    obtain ⟨h1, h2⟩ := hw (idx - w.start) (by omega)
    have e : w.start + (idx - w.start) = idx := by omega
    rw [e] at h1 h2
    rw [h1, if_pos h2]

theorem iterate_spec (rd : Nat → Nat → Res (List Byte)) (data : List Byte) (hrd : ServesList rd data) (base sz K : Nat)
    (hsz : 0 < sz) (hK : 0 < K) (n : Nat) :
    ∀ (w : ArrWin) (idx : Nat), WinOK data base sz w → base + (idx + n) * sz ≤ data.length →
      iterate rd base sz K n w idx = .ok ((List.range' idx n).map (element data base sz)) := by
  induction n with
  | zero => intro w idx _ _; simp [iterate]
  | succ n ih =>
    intro w idx hw hlen
    obtain ⟨h1, h2⟩ := getitem_spec rd data hrd base sz K hsz hK w hw idx
    have hidx : base + (idx + 1) * sz ≤ data.length :=
      Nat.le_trans (Nat.add_le_add_left (Nat.mul_le_mul_right sz (by omega)) base) hlen
    rw [if_pos hidx] at h2
    unfold iterate
    generalize hg : w.getitem rd base sz K idx = g at *
    obtain ⟨w', r⟩ := g
    simp only at h1 h2
    subst h2
    simp only [Res.bind_ok]
    rw [ih w' (idx + 1) h1 (by rw [Nat.add_assoc, Nat.add_comm 1 n]; exact hlen)]
    simp [List.range'_succ]

end Pstack.Reader
