import Verif.Spec.Compressed
import Verif.Proof.Window
/-
Proofs about compressed contents.
-/
namespace Pstack.Spec
open Pstack.Reader Pstack.Compressed

theorem overZeros_full {n : Nat} {out : List Byte} (h : out.length = n) : overZeros n out = out := by
  unfold overZeros
  subst h
  simp

theorem overZeros_length (n : Nat) (out : List Byte) : (overZeros n out).length = n := by
  unfold overZeros
  simp; omega

/-! ### Blocks -/

theorem Archive.indexed {z : Lzma} {up : Nat → Nat → Res (List Byte)} {o : Nat} {bs : List LzBlock} {data : List Byte} (h : Archive z up o bs data) : Indexed o bs := by
  induction h with
  | nil o => exact .nil o
  | cons h1 h2 h3 h4 ih =>
    obtain ⟨c, hh, q1, q2, q3, q4, q5⟩ := h3
    refine .cons h1 ?_ (q5 ▸ ih)
    rw [← q5]
    exact List.length_pos_iff.2 h2

theorem Indexed.mem_le {o : Nat} {bs : List LzBlock} (h : Indexed o bs) : ∀ b ∈ bs, o ≤ b.uoff ∧ 0 < b.usize := by
  induction h with
  | nil o => intro b hb; cases hb
  | cons h1 h2 h3 ih =>
    intro b hb
    rcases List.mem_cons.1 hb with rfl | hb
    · exact ⟨by omega, h2⟩
    · have := ih b hb; exact ⟨by omega, this.2⟩

/-- Blocks do not share bytes. -/
theorem Indexed.unique {o : Nat} {bs : List LzBlock} (h : Indexed o bs) : ∀ b ∈ bs, ∀ b' ∈ bs, ∀ x, b.uoff ≤ x → x < b.uoff + b.usize → b'.uoff ≤ x → x < b'.uoff + b'.usize → b = b' := by
  induction h with
  | nil o => intro b hb; cases hb
  | cons h1 h2 h3 ih =>
    intro b hb b' hb' x k1 k2 k3 k4
    rcases List.mem_cons.1 hb with e | h5 <;> rcases List.mem_cons.1 hb' with e' | h6
    · rw [e, e']
    · have := (h3.mem_le b' h6).1; rw [e] at k2; omega
    · have := (h3.mem_le b h5).1; rw [e'] at k4; omega
    · exact ih b h5 b' h6 x k1 k2 k3 k4

theorem Indexed.same {o : Nat} {bs : List LzBlock} (h : Indexed o bs) {b b' : LzBlock} (hb : b ∈ bs) (hb' : b' ∈ bs) (e : b.uoff = b'.uoff) : b = b' := by
  have h1 := (h.mem_le b hb).2
  have h2 := (h.mem_le b' hb').2
  exact h.unique b hb b' hb' b.uoff (by omega) (by omega) (by omega) (by omega)

theorem Indexed.covers {o : Nat} {bs : List LzBlock} (h : Indexed o bs) : ∀ x, o ≤ x → x < o + (bs.map LzBlock.usize).sum → ∃ b ∈ bs, b.uoff ≤ x ∧ x < b.uoff + b.usize := by
  induction h with
  | nil o => intro x h1 h2; simp at h2; omega
  | @cons o b bs h1 h2 h3 ih =>
    intro x k1 k2
    rw [List.map_cons, List.sum_cons] at k2
    by_cases hx : x < o + b.usize
    · exact ⟨b, List.mem_cons_self, by omega, by omega⟩
    · obtain ⟨b', hb', q⟩ := ih x (by omega) (by omega)
      exact ⟨b', List.mem_cons_of_mem _ hb', q⟩

theorem Indexed.within {o : Nat} {bs : List LzBlock} (h : Indexed o bs) : ∀ b ∈ bs, b.uoff + b.usize ≤ o + (bs.map LzBlock.usize).sum := by
  induction h with
  | nil o => intro b hb; cases hb
  | @cons o b bs h1 h2 h3 ih =>
    intro b' hb'
    rw [List.map_cons, List.sum_cons]
    rcases List.mem_cons.1 hb' with rfl | hb'
    · omega
    · have := ih b' hb'; omega

theorem Archive.length {z : Lzma} {up : Nat → Nat → Res (List Byte)} {o : Nat} {bs : List LzBlock} {data : List Byte} (h : Archive z up o bs data) : (bs.map LzBlock.usize).sum = data.length := by
  induction h with
  | nil o => rfl
  | cons h1 h2 h3 h4 ih =>
    obtain ⟨c, hh, q1, q2, q3, q4, q5⟩ := h3
    rw [List.map_cons, List.sum_cons, List.length_append, ih, q5]

theorem Archive.slice {z : Lzma} {up : Nat → Nat → Res (List Byte)} {o : Nat} {bs : List LzBlock} {data : List Byte} (h : Archive z up o bs data) : ∀ b ∈ bs,
    BlockOf z up b ((data.drop (b.uoff - o)).take b.usize) := by
  induction h with
  | nil o => intro b hb; cases hb
  | @cons o b piece bs rest h1 h2 h3 h4 ih =>
    intro b' hb'
    have hl : piece.length = b.usize := by obtain ⟨c, hh, q1, q2, q3, q4, q5⟩ := h3; exact q5
    rcases List.mem_cons.1 hb' with rfl | hb'
    · have : ((piece ++ rest).drop (b'.uoff - o)).take b'.usize = piece := by
        rw [h1, Nat.sub_self, List.drop_zero, ← hl, List.take_left]
      rw [this]; exact h3
    · have h5 := (h4.indexed.mem_le b' hb').1
      have : (piece ++ rest).drop (b'.uoff - o) = rest.drop (b'.uoff - (o + piece.length)) := by
        rw [List.drop_append, List.drop_of_length_le (by omega), List.nil_append]
        congr 1; omega
      rw [this]; exact ih b' hb'

/-! ### The cache of blocks -/

/-- What a good block is shown as. -/
def Shown (z : Lzma) (up : Nat → Nat → Res (List Byte)) (b : LzBlock) (v : List Byte) : Prop :=
  ∃ c h out, up b.coff b.csize = .ok c ∧ c ≠ [] ∧ z.header c = some h ∧ z.decode h c b.usize = (true, out) ∧ v = overZeros b.usize out

theorem Shown.length {z : Lzma} {up : Nat → Nat → Res (List Byte)} {b : LzBlock} {v : List Byte} (h : Shown z up b v) : v.length = b.usize := by
  obtain ⟨c, hh, out, _, _, _, _, rfl⟩ := h
  exact overZeros_length _ _

theorem Shown.unique {z : Lzma} {up : Nat → Nat → Res (List Byte)} {b : LzBlock} {v w : List Byte} (h : Shown z up b v) (h' : Shown z up b w) : v = w := by
  obtain ⟨c, hh, out, q1, q2, q3, q4, rfl⟩ := h
  obtain ⟨c', hh', out', r1, r2, r3, r4, rfl⟩ := h'
  rw [q1] at r1; injection r1 with r1; subst r1
  rw [q3] at r3; injection r3 with r3; subst r3
  rw [q4] at r4; injection r4 with _ r4; subst r4
  rfl

theorem BlockOf.shown {z : Lzma} {up : Nat → Nat → Res (List Byte)} {b : LzBlock} {v : List Byte} (h : BlockOf z up b v) : Shown z up b v := by
  obtain ⟨c, hh, q1, q2, q3, q4, q5⟩ := h
  exact ⟨c, hh, v, q1, q2, q3, q4, (overZeros_full q5).symm⟩

/-- The cache has nothing wrong. -/
def LzInv (z : Lzma) (up : Nat → Nat → Res (List Byte)) (cache : LzCache) : Prop := ∀ b ∈ z.blocks, cache b.uoff = [] ∨ Shown z up b (cache b.uoff)

theorem LzInv.put {z : Lzma} {up : Nat → Nat → Res (List Byte)} {cache : LzCache} (hi : Indexed 0 z.blocks) (h : LzInv z up cache) {b : LzBlock} (hb : b ∈ z.blocks) {v : List Byte} (hv : Shown z up b v) :
    LzInv z up (cache.put b.uoff v) := by
  intro b' hb'
  unfold LzCache.put
  by_cases e : b'.uoff = b.uoff
  · have := hi.same hb' hb e
    subst this
    rw [if_pos rfl]; exact .inr hv
  · rw [if_neg e]; exact h b' hb'

theorem fillBlock_ok {z : Lzma} {up : Nat → Nat → Res (List Byte)} {cache : LzCache} (hi : Indexed 0 z.blocks) (h : LzInv z up cache) {b : LzBlock} (hb : b ∈ z.blocks) {v : List Byte}
    (hf : (z.fill up cache b).2 = .ok v) : Shown z up b v ∧ LzInv z up (z.fill up cache b).1 := by
  unfold Lzma.fill at hf ⊢
  by_cases hc : cache b.uoff = []
  · rw [if_neg (by simpa using hc)] at hf ⊢
    cases hu : up b.coff b.csize with
    | ok c =>
      rw [hu] at hf
      simp only at hf ⊢
      by_cases hce : c = []
      · rw [if_pos hce] at hf; cases hf
      · rw [if_neg hce] at hf ⊢
        cases hh : z.header c with
        | none => rw [hh] at hf; cases hf
        | some hd =>
          rw [hh] at hf
          simp only at hf ⊢
          rcases hd' : z.decode hd c b.usize with ⟨ok, out⟩
          rw [hd'] at hf
          simp only at hf ⊢
          cases ok with
          | false => simp only [Bool.false_eq_true, if_false] at hf; cases hf
          | true =>
            simp only [if_true] at hf ⊢
            have hs : Shown z up b (overZeros b.usize out) := ⟨c, hd, out, hu, hce, hh, hd', rfl⟩
            have : cache.put b.uoff (overZeros b.usize out) b.uoff = overZeros b.usize out := by unfold LzCache.put; rw [if_pos rfl]
            rw [this] at hf
            injection hf with hf
            subst hf
            exact ⟨hs, h.put hi hb hs⟩
    | exc => rw [hu] at hf; cases hf
    | ub => rw [hu] at hf; cases hf
    | abort => rw [hu] at hf; cases hf
  · rw [if_pos hc] at hf ⊢
    injection hf with hf
    subst hf
    exact ⟨(h b hb).resolve_left hc, h⟩

theorem fillBlock_good {z : Lzma} {up : Nat → Nat → Res (List Byte)} {cache : LzCache} (hi : Indexed 0 z.blocks) (h : LzInv z up cache) {b : LzBlock} (hb : b ∈ z.blocks) {v : List Byte} (hs : Shown z up b v) :
    (z.fill up cache b).2 = .ok v := by
  have : ∃ w, (z.fill up cache b).2 = .ok w := by
    unfold Lzma.fill
    by_cases hc : cache b.uoff = []
    · rw [if_neg (by simpa using hc)]
      obtain ⟨c, hd, out, q1, q2, q3, q4, q5⟩ := hs
      rw [q1]
      simp only
      rw [if_neg q2, q3]
      simp only
      rw [q4]
      simp only [if_true]
      exact ⟨_, rfl⟩
    · rw [if_pos hc]; exact ⟨_, rfl⟩
  obtain ⟨w, hw⟩ := this
  rw [hw, hs.unique (fillBlock_ok hi h hb hw).1]

theorem locate_some {z : Lzma} {x : Nat} {b : LzBlock} (h : z.locate x = some b) : b ∈ z.blocks ∧ b.uoff ≤ x ∧ x < b.uoff + b.usize := by
  unfold Lzma.locate at h
  have h1 := List.find?_some h
  have h2 := List.mem_of_find?_eq_some h
  simp only [Bool.and_eq_true, decide_eq_true_eq] at h1
  exact ⟨h2, h1⟩

theorem locate_in {z : Lzma} (hi : Indexed 0 z.blocks) {x : Nat} (hx : x < z.size) : ∃ b, z.locate x = some b := by
  obtain ⟨b, hb, h1, h2⟩ := hi.covers x (by omega) (by unfold Lzma.size at hx; omega)
  unfold Lzma.locate
  cases hf : z.blocks.find? (fun b => decide (b.uoff ≤ x) && decide (x < b.uoff + b.usize)) with
  | some b' => exact ⟨b', rfl⟩
  | none =>
    have := List.find?_eq_none.1 hf b hb
    simp [h1, h2] at this

theorem locate_out {z : Lzma} (hi : Indexed 0 z.blocks) {x : Nat} (hx : z.size ≤ x) : z.locate x = none := by
  cases h : z.locate x with
  | none => rfl
  | some b =>
    obtain ⟨hb, h1, h2⟩ := locate_some h
    have := hi.within b hb
    unfold Lzma.size at hx
    omega

/-- One turn of the loop. -/
theorem read_turn {z : Lzma} {up : Nat → Nat → Res (List Byte)} {cache : LzCache} {off n : Nat} (hn : n ≠ 0) {b : LzBlock} (hb : z.locate off = some b) {v : List Byte}
    (hf : (z.fill up cache b).2 = .ok v) (hv : off - b.uoff < v.length) :
    z.read up cache off n =
      ((z.read up (z.fill up cache b).1 (off + min (v.length - (off - b.uoff)) n) (n - min (v.length - (off - b.uoff)) n)).1,
       ((z.read up (z.fill up cache b).1 (off + min (v.length - (off - b.uoff)) n) (n - min (v.length - (off - b.uoff)) n)).2).bind
        (fun rest => .ok ((v.drop (off - b.uoff)).take (min (v.length - (off - b.uoff)) n) ++ rest))) := by
  rw [Lzma.read, dif_neg hn, hb]
  simp only
  rcases hfill : z.fill up cache b with ⟨cache', r⟩
  rw [hfill] at hf
  simp only at hf
  subst hf
  simp only
  rw [dif_neg (by omega)]
  rcases z.read up cache' (off + min (v.length - (off - b.uoff)) n) (n - min (v.length - (off - b.uoff)) n) with ⟨cache'', r⟩
  cases r <;> rfl

/-- A part of a list, in two parts. -/
theorem take_split {α : Type} (l : List α) (off k n : Nat) (h : k ≤ n) : (l.drop off).take n = (l.drop off).take k ++ (l.drop (off + k)).take (n - k) := by
  rw [← List.drop_drop, ← List.take_add]
  congr 1; omega

theorem slice_of {data v : List Byte} {uoff usize off n : Nat} (hv : v = (data.drop uoff).take usize) (h : uoff ≤ off) : (v.drop (off - uoff)).take (min (usize - (off - uoff)) n) = (data.drop off).take (min (usize - (off - uoff)) n) := by
  subst hv
  rw [List.drop_take, List.take_take, List.drop_drop]
  congr 1
  · omega
  · congr 1; omega

/-- Reads inside the contents. -/
theorem read_archive {z : Lzma} {up : Nat → Nat → Res (List Byte)} {data : List Byte} (ha : Archive z up 0 z.blocks data) : ∀ (n off : Nat) (cache : LzCache), LzInv z up cache →
    LzInv z up (z.read up cache off n).1 ∧ (off + n ≤ data.length → (z.read up cache off n).2 = .ok ((data.drop off).take n)) ∧ (n ≠ 0 → data.length < off + n → (z.read up cache off n).2 = .exc) := by
  have hi := ha.indexed
  have hsz : z.size = data.length := ha.length
  intro n
  induction n using Nat.strongRecOn with
  | _ n ih =>
    intro off cache hc
    by_cases hn : n = 0
    · subst hn
      have e : z.read up cache off 0 = (cache, .ok []) := by rw [Lzma.read, dif_pos rfl]
      rw [e]
      exact ⟨hc, fun _ => by simp, fun h => absurd rfl h⟩
    · by_cases hx : off < data.length
      · obtain ⟨b, hb⟩ := locate_in hi (x := off) (by omega)
        obtain ⟨hm, h1, h2⟩ := locate_some hb
        have hbl := ha.slice b hm
        rw [Nat.sub_zero] at hbl
        have hs := hbl.shown
        have hl := hs.length
        have hf := fillBlock_good hi hc hm hs
        have hc' := (fillBlock_ok hi hc hm hf).2
        rw [read_turn hn hb hf (by omega)]
        generalize hv : (data.drop b.uoff).take b.usize = v at *
        have hpos : 0 < min (v.length - (off - b.uoff)) n := by omega
        obtain ⟨k1, k2, k3⟩ := ih (n - min (v.length - (off - b.uoff)) n) (by omega) (off + min (v.length - (off - b.uoff)) n) _ hc'
        refine ⟨k1, ?_, ?_⟩
        · intro hle
          simp only
          rw [k2 (by omega), Res.bind]
          rw [hl, slice_of hv.symm h1, ← take_split _ _ _ _ (by omega)]
        · intro _ hlt
          simp only
          have hw := hi.within b hm
          have : b.uoff + b.usize ≤ data.length := by unfold Lzma.size at hsz; omega
          rw [k3 (by omega) (by omega), Res.bind]
      · have e : z.read up cache off n = (cache, .exc) := by rw [Lzma.read, dif_neg hn, locate_out hi (by omega)]
        rw [e]
        exact ⟨hc, fun h => by omega, fun _ _ => rfl⟩

theorem LzHist.inv {z : Lzma} {up : Nat → Nat → Res (List Byte)} {data : List Byte} (ha : Archive z up 0 z.blocks data) {cache : LzCache} (h : LzHist z up cache) : LzInv z up cache := by
  induction h with
  | start => exact fun _ _ => .inl rfl
  | read off n _ ih => exact (read_archive ha n off _ ih).1

/-- Reads that succeed, of any file with an index. -/
theorem read_indexed {z : Lzma} {up : Nat → Nat → Res (List Byte)} (hi : Indexed 0 z.blocks) : ∀ (n off : Nat) (cache : LzCache) (bs : List Byte), LzInv z up cache → (z.read up cache off n).2 = .ok bs →
    LzInv z up (z.read up cache off n).1 ∧ bs.length = n ∧ ∀ k, k < n → ∃ b v, b ∈ z.blocks ∧ b.uoff ≤ off + k ∧ off + k < b.uoff + b.usize ∧ Shown z up b v ∧ bs[k]? = v[off + k - b.uoff]? := by
  intro n
  induction n using Nat.strongRecOn with
  | _ n ih =>
    intro off cache bs hc hr
    by_cases hn : n = 0
    · subst hn
      have e : z.read up cache off 0 = (cache, .ok []) := by rw [Lzma.read, dif_pos rfl]
      rw [e] at hr ⊢
      injection hr with hr; subst hr
      exact ⟨hc, rfl, fun k hk => by omega⟩
    · cases hb : z.locate off with
      | none => rw [Lzma.read, dif_neg hn, hb] at hr; cases hr
      | some b =>
        obtain ⟨hm, h1, h2⟩ := locate_some hb
        cases hf : (z.fill up cache b).2 with
        | ok v =>
          obtain ⟨hs, hc'⟩ := fillBlock_ok hi hc hm hf
          have hl := hs.length
          rw [read_turn hn hb hf (by omega)] at hr ⊢
          simp only at hr ⊢
          have hpos : 0 < min (v.length - (off - b.uoff)) n := by omega
          cases hrest : (z.read up (z.fill up cache b).1 (off + min (v.length - (off - b.uoff)) n) (n - min (v.length - (off - b.uoff)) n)).2 with
          | ok rest =>
            rw [hrest, Res.bind] at hr
            injection hr with hr
            obtain ⟨k1, k2, k3⟩ := ih (n - min (v.length - (off - b.uoff)) n) (by omega) _ _ rest hc' hrest
            have hlen : ((v.drop (off - b.uoff)).take (min (v.length - (off - b.uoff)) n)).length = min (v.length - (off - b.uoff)) n := by rw [List.length_take, List.length_drop]; omega
            refine ⟨k1, ?_, ?_⟩
            · rw [← hr, List.length_append, hlen, k2]; omega
            · intro k hk
              rw [← hr]
              by_cases hk' : k < min (v.length - (off - b.uoff)) n
              · refine ⟨b, v, hm, by omega, by omega, hs, ?_⟩
                rw [List.getElem?_append_left (by omega), List.getElem?_take_of_lt hk', List.getElem?_drop]
                congr 1; omega
              · obtain ⟨b', v', q1, q2, q3, q4, q5⟩ := k3 (k - min (v.length - (off - b.uoff)) n) (by omega)
                refine ⟨b', v', q1, by omega, by omega, q4, ?_⟩
                rw [List.getElem?_append_right (by omega), hlen, q5]
                congr 1; omega
          | exc => rw [hrest] at hr; cases hr
          | ub => rw [hrest] at hr; cases hr
          | abort => rw [hrest] at hr; cases hr
        | exc =>
          exfalso
          rw [Lzma.read, dif_neg hn, hb] at hr
          simp only at hr
          rcases hfill : z.fill up cache b with ⟨c', r⟩
          rw [hfill] at hf hr; simp only at hf; subst hf; cases hr
        | ub =>
          exfalso
          rw [Lzma.read, dif_neg hn, hb] at hr
          simp only at hr
          rcases hfill : z.fill up cache b with ⟨c', r⟩
          rw [hfill] at hf hr; simp only at hf; subst hf; cases hr
        | abort =>
          exfalso
          rw [Lzma.read, dif_neg hn, hb] at hr
          simp only at hr
          rcases hfill : z.fill up cache b with ⟨c', r⟩
          rw [hfill] at hf hr; simp only at hf; subst hf; cases hr

theorem LzOk.inv {z : Lzma} {up : Nat → Nat → Res (List Byte)} (hi : Indexed 0 z.blocks) {cache : LzCache} (h : LzOk z up cache) : LzInv z up cache := by
  induction h with
  | start => exact fun _ _ => .inl rfl
  | read off n _ hr ih => exact (read_indexed hi n off _ _ ih hr).1

/-! ### inflate -/

structure InfInv (z : Zlib) (c p content : List Byte) (R : z.State → Nat → Nat → Prop) (A : Nat) (s : InflateSt z.State) (i o : Nat) : Prop where
  r : R s.z i o
  hi : i < c.length
  ic : i ≤ content.length
  ho : o ≤ p.length
  out : s.out = p.take o
  avail : s.avail + o = A
  input : ∃ n, s.input = (content.drop i).take n
  off : s.inputOffset = i + s.input.length
  eof : s.eof = true → content.length = i

theorem refill_ok {z : Zlib} {c p content : List Byte} {R : z.State → Nat → Nat → Prop} {A : Nat} {up : Nat → Nat → Res (List Byte)} (hg : Gives up content) {s : InflateSt z.State} {i o : Nat}
    (h : InfInv z c p content R A s i o) : ∃ s', refill up s = .ok s' ∧ InfInv z c p content R A s' i o ∧ (s'.eof = false → s'.input ≠ []) := by
  unfold refill
  by_cases hc : s.input = [] ∧ s.eof = false
  · rw [if_pos hc]
    have hoff : s.inputOffset = i := by rw [h.off, hc.1]; rfl
    obtain ⟨k, h1, h2, h3⟩ := hg s.inputOffset (by rw [hoff]; exact h.ic)
    rw [h1, Res.bind_ok]
    refine ⟨_, rfl, ⟨h.r, h.hi, h.ic, h.ho, h.out, h.avail, ⟨k, by rw [hoff]⟩, by simp only [hoff], ?_⟩, ?_⟩
    · intro he
      simp only [List.isEmpty_iff] at he
      rw [hoff] at he h3
      rcases Nat.lt_or_ge i content.length with hlt | hge
      · have := h3 hlt
        have hl : ((content.drop i).take k).length = 0 := by rw [he]; rfl
        simp at hl
        omega
      · have := h.ic; omega
    · intro he
      simp only [List.isEmpty_eq_false_iff] at he
      exact he
  · rw [if_neg hc]
    exact ⟨s, rfl, h, fun he hi => hc ⟨hi, he⟩⟩

theorem inflateLoop_spec {z : Zlib} {c p content : List Byte} {R : z.State → Nat → Nat → Prop} {up : Nat → Nat → Res (List Byte)} (hz : Inflates z c p content R) (hg : Gives up content) (A : Nat) :
    ∀ (fuel : Nat) (s : InflateSt z.State) (i o : Nat), InfInv z c p content R A s i o → (c.length - i) + (p.length - o) < fuel →
    (c.length ≤ content.length → p.length ≤ A → inflateLoop z up fuel s = some (.ok p)) ∧
    (content.length < c.length ∨ A < p.length → inflateLoop z up fuel s = some .exc) := by
  intro fuel
  induction fuel with
  | zero => intro s i o _ hm; omega
  | succ fuel ih =>
    intro s i o hinv hm
    rw [inflateLoop]
    obtain ⟨s', h1, h2, h3⟩ := refill_ok hg hinv
    rw [h1]
    simp only
    obtain ⟨n, hn⟩ := h2.input
    rcases hstep : z.inflate s'.z s'.input s'.avail s'.eof with ⟨ret, used, made, z'⟩
    obtain ⟨g1, g2, g3, g4, g5, g6, g7, g8, g9⟩ := hz.step s'.z i o n s'.avail s'.eof ret used made z' h2.r h2.hi h2.ho (by rw [← hn]; exact hstep)
    rw [← hn] at g1 g8
    have havail := h2.avail
    have hic := h2.ic
    have hi := h2.hi
    have ho := h2.ho
    have hmade : made.length ≤ p.length - o := by
      rw [g3]; simp; omega
    have hil : s'.input.length ≤ content.length - i := by rw [hn]; simp; omega
    cases ret with
    | streamEnd =>
      simp only
      have e := g6.1 rfl
      have e2 := g7 e
      have ho : s'.out ++ made = p := by
        have e3 : made = p.drop o := by rw [g3, List.take_of_length_le]; simp; omega
        rw [h2.out, e3, List.take_append_drop]
      rw [ho]
      exact ⟨fun _ _ => rfl, fun h => by omega⟩
    | ok =>
      simp only
      have hne : i + used ≠ c.length := fun e => nomatch g6.2 e
      obtain ⟨hfin, hprog⟩ := (g9 (by decide)).1 rfl
      refine ih _ (i + used) (o + made.length) ⟨g5, by omega, by omega, by omega, ?_, ?_, ⟨n - used, ?_⟩, ?_, ?_⟩ (by omega)
      · have e3 : made = (p.drop o).take made.length := g3
        show s'.out ++ made = _
        rw [h2.out, List.take_add, ← e3]
      · show s'.avail - made.length + (o + made.length) = A
        omega
      · show s'.input.drop used = _
        rw [hn, List.drop_take, List.drop_drop]
      · show s'.inputOffset = i + used + (s'.input.drop used).length
        rw [h2.off, List.length_drop]; omega
      · show s'.eof = true → _
        rw [hfin]; intro h; cases h
    | other =>
      simp only
      refine ⟨fun hc1 hc2 => ?_, fun _ => trivial⟩
      exfalso
      cases he : s'.eof with
      | true => have := h2.eof he; omega
      | false =>
        have hnl := List.length_pos_iff.2 (h3 he)
        have hno : ¬(0 < used ∨ 0 < made.length) := fun hp => nomatch (g9 (by decide)).2 ⟨he, hp⟩
        rcases g8 (by decide) with h | ⟨h, h'⟩
        · omega
        · omega

theorem InfInv.start {z : Zlib} {c p content : List Byte} {R : z.State → Nat → Nat → Prop} (hz : Inflates z c p content R) (A : Nat) : InfInv z c p content R A ⟨z.init, [], 0, false, [], A⟩ 0 0 where
  r := hz.init
  hi := List.length_pos_iff.2 hz.ne
  ic := Nat.zero_le _
  ho := Nat.zero_le _
  out := rfl
  avail := rfl
  input := ⟨0, by simp⟩
  off := rfl
  eof := fun h => nomatch h

theorem inflateReader_spec {z : Zlib} {c p content : List Byte} {R : z.State → Nat → Nat → Prop} {up : Nat → Nat → Res (List Byte)} (hz : Inflates z c p content R) (hg : Gives up content) (N : Nat) (fuel : Nat)
    (hf : c.length + p.length < fuel) :
    (c.length ≤ content.length → p.length ≤ N % 2 ^ 32 → inflateReader z N up fuel = some (.ok (.mem (overZeros N p) 0 N))) ∧
    (content.length < c.length ∨ N % 2 ^ 32 < p.length → inflateReader z N up fuel = some .exc) := by
  obtain ⟨h1, h2⟩ := inflateLoop_spec hz hg (N % 2 ^ 32) fuel _ 0 0 (InfInv.start hz _) (by omega)
  unfold inflateReader
  exact ⟨fun a b => by rw [h1 a b], fun a => by rw [h2 a]⟩

/-! ### Views -/

/-- Views of views. -/
theorem view_view (r : Rdr) : r.WF → ∀ a n b m, a + b ≤ r.size → (r.view a n).view b m = r.view (a + b) m := by
  induction r with
  | mem buf st sz => intro _ a n b m _; simp only [Rdr.view]; congr 1; omega
  | file data =>
    intro h a n b m hab
    have h1 : data.length < W64 := h
    have h2 : a + b ≤ data.length := hab
    simp only [Rdr.view]
    rw [Nat.mod_eq_of_lt (by omega)]
  | null => intro h; exact absurd h id
  | window up o l ih =>
    intro h a n b m hab
    obtain ⟨h1, h2⟩ : up.WF ∧ o + l ≤ up.size := h
    have hab' : a + b ≤ l := hab
    have h3 := (content_length up h1).2
    simp only [Rdr.view]
    rw [Nat.mod_eq_of_lt (by omega), ih h1 _ _ _ _ (by omega), Nat.mod_eq_of_lt (by omega)]
    congr 1; omega

theorem gives_reader {r : Rdr} (h : r.WF) (hs : r.size + xferSize < 2 ^ 64) : Gives r.read r.content := by
  have hl := content_length r h
  intro off hoff
  refine ⟨xferSize, read_content r h off xferSize (by omega) (by rw [W64_eq]; omega), Nat.le_refl _, fun _ => by decide⟩

theorem lowFirst_length (n : Nat) : (lowFirst n).length = 8 := by simp [lowFirst]

theorem highFirst_length (n : Nat) : (highFirst n).length = 8 := by rw [highFirst, List.length_reverse, lowFirst_length]

theorem lowFirst_eq (n : Nat) : lowFirst n = [BitVec.ofNat 8 (n / 256 ^ 0), BitVec.ofNat 8 (n / 256 ^ 1), BitVec.ofNat 8 (n / 256 ^ 2), BitVec.ofNat 8 (n / 256 ^ 3), BitVec.ofNat 8 (n / 256 ^ 4),
    BitVec.ofNat 8 (n / 256 ^ 5), BitVec.ofNat 8 (n / 256 ^ 6), BitVec.ofNat 8 (n / 256 ^ 7)] := rfl

theorem leNat_lowFirst {n : Nat} (h : n < 2 ^ 64) : leNat (lowFirst n) = n := by
  rw [lowFirst_eq]
  simp only [leNat, BitVec.toNat_ofNat]
  omega

theorem beNat_highFirst {n : Nat} (h : n < 2 ^ 64) : beNat (highFirst n) = n := by
  rw [highFirst, lowFirst_eq]
  simp only [beNat, List.reverse_cons, List.reverse_nil, List.nil_append, List.cons_append, List.foldl_cons, List.foldl_nil, BitVec.toNat_ofNat]
  omega

end Pstack.Spec
