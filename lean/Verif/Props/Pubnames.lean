import Verif.Model.Pubnames
import Verif.Spec.Pubnames
import Verif.Proof.DieBytes
/-
Property theorems C84: public names (Spec/Pubnames.lean).
-/
namespace Pstack.Props
open Pstack.Reader Pstack.Spec Pstack.Dwarf Pstack.Pubnames

/-- The unit the library makes of a set, of which it has read these names. -/
def PubSet.read (p : PubSet) (names : List (Nat × List Byte)) : PubUnit :=
  ⟨BitVec.ofNat 16 p.body.length, BitVec.ofNat 16 p.version, BitVec.ofNat 32 p.infoOffset, BitVec.ofNat 32 p.infoLength, names.map (fun q => (BitVec.ofNat 32 q.1, q.2))⟩

theorem pubNameBytes_cons (q : Nat × List Byte) (l : List (Nat × List Byte)) : pubNameBytes (q :: l) = leBytes 4 q.1 ++ (q.2 ++ [0#8]) ++ pubNameBytes l := rfl

theorem pubNameBytes_length (q : Nat × List Byte) (l : List (Nat × List Byte)) : (pubNameBytes (q :: l)).length = 5 + q.2.length + (pubNameBytes l).length := by
  rw [pubNameBytes_cons]; simp [leBytes_length]; omega

section
variable {d : List Byte} (hw : d.length < W64)
include hw

/-- The names that begin before `next`, and then what the loop does behind them. -/
theorem pubEntries_names {next : Nat} : ∀ (l : List (Nat × List Byte)) (fuel off : Nat) (rest : List Byte), (∀ q ∈ l, 0 < q.1 ∧ q.1 < 2 ^ 32 ∧ GoodName q.2) → d.drop off = pubNameBytes l ++ rest →
    (∀ a q b, l = a ++ q :: b → off + (pubNameBytes a).length < next) →
    pubEntries d next (fuel + l.length) off = (pubEntries d next fuel >>= fun more => pure (l.map (fun q => (BitVec.ofNat 32 q.1, q.2)) ++ more)) (off + (pubNameBytes l).length) := by
  intro l
  induction l with
  | nil =>
    intro fuel off rest _ _ _
    show _ = Res.bind (pubEntries d next fuel off) _
    cases pubEntries d next fuel off <;> rfl
  | cons q l ih =>
    intro fuel off rest hq hd hn
    obtain ⟨h1, h2, h3⟩ := hq q List.mem_cons_self
    rw [pubNameBytes_cons, List.append_assoc, List.append_assoc] at hd
    have e1 := reads_u32 q.1 h2 off _ hd
    have hd2 := drop_prefix hd
    have e2 := reads_string hw q.2 h3 _ _ hd2
    have hd3 := drop_prefix hd2
    have hlt : off < next := by have := hn [] q l rfl; simpa [pubNameBytes] using this
    have hne : BitVec.ofNat 32 q.1 ≠ 0#32 := by
      intro h
      have := congrArg BitVec.toNat h
      rw [BitVec.toNat_ofNat, Nat.mod_eq_of_lt h2] at this
      simp at this
      omega
    have := ih fuel _ rest (fun x hx => hq x (List.mem_cons_of_mem _ hx)) hd3 (by
      intro a q' b hab
      have := hn (q :: a) q' b (by rw [hab]; rfl)
      rw [pubNameBytes_length] at this
      simp only [leBytes_length, List.length_append, List.length_cons, List.length_nil]
      omega)
    rw [List.length_cons, ← Nat.add_assoc, pubEntries]
    show Res.bind (getOffset off) _ = _
    rw [show getOffset off = .ok (off, off) from rfl]
    simp only [Res.bind]
    rw [if_pos hlt]
    show Res.bind (getu32 d off) _ = _
    rw [e1]
    simp only [Res.bind]
    rw [if_neg hne]
    show Res.bind (getstring d _) _ = _
    rw [e2]
    simp only [Res.bind]
    show Res.bind (pubEntries d next (fuel + l.length) _) _ = _
    rw [this]
    have hoff : off + (leBytes 4 q.1).length + (q.2 ++ [0#8]).length + (pubNameBytes l).length = off + (pubNameBytes (q :: l)).length := by
      rw [pubNameBytes_length]; simp [leBytes_length]; omega
    rw [hoff]
    show Res.bind (Res.bind (pubEntries d next fuel _) _) _ = Res.bind (pubEntries d next fuel _) _
    generalize pubEntries d next fuel (off + (pubNameBytes (q :: l)).length) = z
    cases z <;> rfl

/-- What is read of a set: the names up to where the last sixteen bits of its length say. -/
theorem pubUnit_reads {p : PubSet} (hp : p.WF) {off : Nat} {rest : List Byte} (hd : d.drop off = p.encode ++ rest) (hoff : off + 65540 < W64) {pre post : List (Nat × List Byte)} (hn : p.names = pre ++ post)
    (h1 : ∀ a q b, pre = a ++ q :: b → 10 + (pubNameBytes a).length < p.body.length % 65536)
    (h2 : p.body.length % 65536 ≤ 10 + (pubNameBytes pre).length ∨ (post = [] ∧ p.ended = true)) :
    pubUnit d off = .ok (PubSet.read p pre, off + 14 + (pubNameBytes pre).length + (if p.body.length % 65536 ≤ 10 + (pubNameBytes pre).length then 0 else 4)) := by
  unfold PubSet.encode at hd
  rw [List.append_assoc] at hd
  have e1 := reads_u32 (d := d) p.body.length (by have := hp.size; omega) off _ hd
  have hd1 := drop_prefix hd
  have hb : p.body ++ rest = leBytes 2 p.version ++ (leBytes 4 p.infoOffset ++ (leBytes 4 p.infoLength ++ (pubNameBytes pre ++ (pubNameBytes post ++ ((if p.ended then leBytes 4 0 else []) ++ rest))))) := by
    unfold PubSet.body
    rw [hn]
    simp [pubNameBytes, List.append_assoc]
  rw [hb] at hd1
  have e2 := reads_u16 p.version hp.version _ _ hd1
  have hd2 := drop_prefix hd1
  have e3 := reads_u32 p.infoOffset hp.offset _ _ hd2
  have hd3 := drop_prefix hd2
  have e4 := reads_u32 p.infoLength hp.length _ _ hd3
  have hd4 := drop_prefix hd3
  simp only [leBytes_length] at *
  have hl : (BitVec.setWidth 16 (BitVec.ofNat 32 p.body.length)) = BitVec.ofNat 16 p.body.length := by
    apply BitVec.eq_of_toNat_eq
    simp
  have hlen : (BitVec.ofNat 16 p.body.length).toNat = p.body.length % 65536 := by rw [BitVec.toNat_ofNat]
  have hnext : (off + 4 + p.body.length % 65536) % W64 = off + 4 + p.body.length % 65536 := Nat.mod_eq_of_lt (by omega)
  have hpl : pre.length + 1 ≤ d.length + 1 := by
    have : pre.length ≤ (pubNameBytes pre).length := by
      clear hd hd1 hd2 hd3 hd4 hn h1 h2 hb
      induction pre with
      | nil => simp
      | cons q l ih => rw [pubNameBytes_length, List.length_cons]; omega
    have h3 := congrArg List.length hd4
    rw [List.length_drop, List.length_append] at h3
    omega
  have e5 := pubEntries_names hw (next := off + 4 + p.body.length % 65536) pre (d.length + 1 - pre.length) (off + 4 + 2 + 4 + 4) _ (fun q hq => hp.names q (by rw [hn]; exact List.mem_append_left _ hq)) hd4 (by
    intro a q b hab
    have := h1 a q b hab
    omega)
  rw [show d.length + 1 - pre.length + pre.length = d.length + 1 by omega] at e5
  have e6 : pubEntries d (off + 4 + p.body.length % 65536) (d.length + 1 - pre.length) (off + 4 + 2 + 4 + 4 + (pubNameBytes pre).length) =
      .ok ([], off + 14 + (pubNameBytes pre).length + (if p.body.length % 65536 ≤ 10 + (pubNameBytes pre).length then 0 else 4)) := by
    obtain ⟨f, hf⟩ : ∃ f, d.length + 1 - pre.length = f + 1 := ⟨d.length - pre.length, by omega⟩
    rw [hf, pubEntries]
    show Res.bind (getOffset _) _ = _
    simp only [getOffset, Res.bind]
    by_cases hc : p.body.length % 65536 ≤ 10 + (pubNameBytes pre).length
    · rw [if_neg (by omega), if_pos hc]
      show Res.ok _ = _
      rw [show off + 4 + 2 + 4 + 4 + (pubNameBytes pre).length = off + 14 + (pubNameBytes pre).length + 0 by omega]
    · rw [if_pos (by omega), if_neg hc]
      obtain ⟨h2, h3⟩ := h2.resolve_left hc
      subst h2
      rw [h3] at hd4
      have e7 := reads_u32 0 (by decide) _ _ (drop_prefix hd4)
      show Res.bind (getu32 d _) _ = _
      rw [e7]
      simp only [Res.bind, leBytes_length]
      show Res.ok ([], off + 4 + 2 + 4 + 4 + (pubNameBytes pre).length + 4) = _
      rw [show off + 4 + 2 + 4 + 4 + (pubNameBytes pre).length + 4 = off + 14 + (pubNameBytes pre).length + 4 by omega]
  unfold pubUnit
  show Res.bind (getu32 d off) _ = _
  rw [e1]
  simp only [Res.bind]
  show Res.bind (getOffset _) _ = _
  simp only [getOffset, Res.bind]
  show Res.bind (getu16 d _) _ = _
  rw [e2]
  simp only [Res.bind]
  show Res.bind (getu32 d _) _ = _
  rw [e3]
  simp only [Res.bind]
  show Res.bind (getu32 d _) _ = _
  rw [e4]
  simp only [Res.bind]
  show Res.bind (pubEntries d _ _ _) _ = _
  rw [hl, hlen, hnext, e5]
  show Res.bind (Res.bind (pubEntries d _ _ _) _) _ = _
  rw [e6]
  simp only [Res.bind]
  show Res.ok _ = Res.ok _
  simp only [List.append_nil]
  rfl

omit hw in
theorem encodePubSets_cons (p : PubSet) (l : List PubSet) : encodePubSets (p :: l) = p.encode ++ encodePubSets l := rfl

omit hw in
theorem pubEncode_length (p : PubSet) : p.encode.length = 14 + (pubNameBytes p.names).length + (if p.ended then 4 else 0) := by
  unfold PubSet.encode PubSet.body
  simp only [List.length_append, leBytes_length]
  split <;> simp [leBytes_length] <;> omega

omit hw in
theorem pubBody_length (p : PubSet) : p.body.length = 10 + (pubNameBytes p.names).length + (if p.ended then 4 else 0) := by
  have := pubEncode_length p
  unfold PubSet.encode at this
  rw [List.length_append, leBytes_length] at this
  omega

/-- A set of less than 64k is read. -/
theorem pubUnit_small {p : PubSet} (hp : p.WF) (hs : p.body.length < 65536) {off : Nat} {rest : List Byte} (hd : d.drop off = p.encode ++ rest) (hoff : off + 65540 < W64) :
    pubUnit d off = .ok (PubSet.read p p.names, off + p.encode.length) := by
  have hb := pubBody_length p
  have hm : p.body.length % 65536 = p.body.length := Nat.mod_eq_of_lt hs
  have := pubUnit_reads hw hp hd hoff (pre := p.names) (post := []) (List.append_nil _).symm (by
    intro a q b hab
    have h1 : (pubNameBytes p.names).length = (pubNameBytes a).length + (pubNameBytes (q :: b)).length := by rw [hab]; simp [pubNameBytes]
    rw [pubNameBytes_length] at h1
    rw [hm]
    omega) (by
    rw [hm, hb]
    cases p.ended
    · left; simp
    · right; exact ⟨rfl, rfl⟩)
  rw [this, pubEncode_length, hm]
  cases he : p.ended with
  | false => rw [he] at hb; simp only [Bool.false_eq_true, if_false] at hb ⊢; rw [if_pos (by omega)]; simp only [Nat.add_assoc]
  | true => rw [he] at hb; simp only [if_true] at hb ⊢; rw [if_neg (by omega)]; simp only [Nat.add_assoc]

theorem pubLoop_sets (hw' : d.length + 65540 < W64) : ∀ (l : List PubSet) (fuel off : Nat) (acc : List PubUnit) (rest : List Byte), (∀ p ∈ l, p.WF ∧ p.body.length < 65536) → d.drop off = encodePubSets l ++ rest → off ≤ d.length →
    pubLoop d (fuel + l.length) off acc = pubLoop d fuel (off + (encodePubSets l).length) (acc ++ l.map (fun p => PubSet.read p p.names)) := by
  intro l
  induction l with
  | nil => intro fuel off acc rest _ _ _; simp [encodePubSets]
  | cons p l ih =>
    intro fuel off acc rest hp hd hoff
    obtain ⟨h1, h2⟩ := hp p List.mem_cons_self
    rw [encodePubSets_cons, List.append_assoc] at hd
    have e := pubUnit_small hw h1 h2 hd (by omega)
    have hlen := congrArg List.length hd
    rw [List.length_drop, List.length_append] at hlen
    have hpe := pubEncode_length p
    have := ih fuel _ (acc ++ [PubSet.read p p.names]) rest (fun q hq => hp q (List.mem_cons_of_mem _ hq)) (drop_prefix hd) (by omega)
    rw [List.length_cons, ← Nat.add_assoc, pubLoop, if_neg (by omega), e]
    simp only
    rw [this, encodePubSets_cons, List.length_append, List.map_cons, Nat.add_assoc, List.append_assoc]
    rfl

omit hw in
theorem pubSets_count (l : List PubSet) : l.length ≤ (encodePubSets l).length := by
  induction l with
  | nil => simp
  | cons p l ih => rw [encodePubSets_cons, List.length_append, List.length_cons]; have := pubEncode_length p; omega

end

/-- The state after any number of calls. -/
inductive PubHistory (sec : Option (List Byte)) : Option (List PubUnit) → Prop
  | start : PubHistory sec none
  | call {c} : PubHistory sec c → PubHistory sec (pubnames sec c).2

/-- C84. The public names are those of the sets in the section, in order, with the unit each set is about; the first time and every time after.
Missing: sets of 64k and more (`C84_not_long`), sets with offsets of 64 bits (`C84_not_wide`). -/
theorem C84_names_partial {l : List PubSet} (hl : ∀ p ∈ l, p.WF ∧ p.body.length < 65536) (hw : (encodePubSets l).length + 65540 < W64) {c : Option (List PubUnit)} (hc : PubHistory (some (encodePubSets l)) c) :
    (pubnames (some (encodePubSets l)) c).1 = .ok (l.map fun p => ⟨BitVec.ofNat 16 p.body.length, BitVec.ofNat 16 p.version, BitVec.ofNat 32 p.infoOffset, BitVec.ofNat 32 p.infoLength,
      p.names.map fun q => (BitVec.ofNat 32 q.1, q.2)⟩) := by
  have first : pubnames (some (encodePubSets l)) none = (.ok (l.map fun p => PubSet.read p p.names), some (l.map fun p => PubSet.read p p.names)) := by
    have := pubLoop_sets (d := encodePubSets l) (by omega) hw l ((encodePubSets l).length + 1 - l.length) 0 [] [] hl (by simp) (Nat.zero_le _)
    have hcnt := pubSets_count l
    rw [show (encodePubSets l).length + 1 - l.length + l.length = (encodePubSets l).length + 1 by omega, Nat.zero_add, List.nil_append] at this
    obtain ⟨f, hf⟩ : ∃ f, (encodePubSets l).length + 1 - l.length = f + 1 := ⟨(encodePubSets l).length - l.length, by omega⟩
    have e : pubLoop (encodePubSets l) (f + 1) (encodePubSets l).length (l.map fun p => PubSet.read p p.names) = (l.map fun p => PubSet.read p p.names, .ok ⟨⟩) := by rw [pubLoop, if_pos rfl]
    rw [hf, e] at this
    unfold pubnames
    simp only
    rw [this]
    rfl
  have h2 : c = none ∨ c = some (l.map fun p => PubSet.read p p.names) := by
    induction hc with
    | start => exact .inl rfl
    | call _ ih =>
      rcases ih with rfl | rfl
      · right; rw [first]
      · right; rfl
  rcases h2 with rfl | rfl
  · rw [first]; rfl
  · rfl

/-- Without the section there are none. -/
theorem C84_none {c : Option (List PubUnit)} (hc : PubHistory none c) : (pubnames none c).1 = .ok [] := by
  have h2 : c = none ∨ c = some [] := by
    induction hc with
    | start => exact .inl rfl
    | call _ ih => rcases ih with rfl | rfl <;> right <;> rfl
  rcases h2 with rfl | rfl <;> rfl

/-- What has been read stays. -/
theorem pubLoop_first (d : List Byte) : ∀ fuel off (l : List PubUnit) u, ∃ us, (pubLoop d fuel off (u :: l)).1 = u :: us := by
  intro fuel
  induction fuel with
  | zero => intro off l u; exact ⟨l, rfl⟩
  | succ f ih =>
    intro off l u
    rw [pubLoop]
    split
    · exact ⟨l, rfl⟩
    · split
      · exact ih _ (l ++ [_]) u
      · exact ⟨l, rfl⟩
      · exact ⟨l, rfl⟩
      · exact ⟨l, rfl⟩

/-- The length of a set is kept in sixteen bits. Of a longer one only the names that begin in as many bytes as its last sixteen bits say are found; what is behind them is taken for another set. -/
theorem C84_not_long {p : PubSet} (hp : p.WF) {pre post : List (Nat × List Byte)} (hn : p.names = pre ++ post) (hpost : post ≠ []) (h1 : pre = [] ∨ 10 + (pubNameBytes pre.dropLast).length < p.body.length % 65536)
    (h2 : p.body.length % 65536 ≤ 10 + (pubNameBytes pre).length) {more : List Byte} (hw : (p.encode ++ more).length + 65540 < W64) :
    ∃ u us, (pubnames (some (p.encode ++ more)) none).2 = some (u :: us) ∧ u.names = pre.map (fun q => (BitVec.ofNat 32 q.1, q.2)) ∧ u.names.length < p.names.length := by
  have e := pubUnit_reads (d := p.encode ++ more) (by omega) hp (off := 0) (rest := more) (by simp) (by omega) hn (by
    intro a q b hab
    rcases h1 with h1 | h1
    · rw [h1] at hab; cases a <;> cases hab
    · have hab' : pre.dropLast = a ++ (q :: b).dropLast := by rw [hab, List.dropLast_append_of_ne_nil (by simp)]
      rw [hab'] at h1
      have : (pubNameBytes (a ++ (q :: b).dropLast)).length = (pubNameBytes a).length + (pubNameBytes (q :: b).dropLast).length := by simp [pubNameBytes]
      omega) (.inl h2)
  have hpe := pubEncode_length p
  obtain ⟨us, hus⟩ := pubLoop_first (p.encode ++ more) (p.encode ++ more).length (0 + 14 + (pubNameBytes pre).length + (if p.body.length % 65536 ≤ 10 + (pubNameBytes pre).length then 0 else 4)) [] (PubSet.read p pre)
  refine ⟨PubSet.read p pre, us, ?_, rfl, ?_⟩
  · unfold pubnames
    simp only
    rw [pubLoop, if_neg (by simp only [List.length_append]; omega), e]
    simp only [List.nil_append]
    rw [hus]
  · rw [show (PubSet.read p pre).names = pre.map (fun q => (BitVec.ofNat 32 q.1, q.2)) from rfl, List.length_map, hn, List.length_append]
    have : 0 < post.length := List.length_pos_iff.2 hpost
    omega

theorem pubBind_ok {α β : Type} {p : Parse α} {f : α → Parse β} {off : Nat} {z : β × Nat} (h : (p >>= f) off = .ok z) : ∃ a o, p off = .ok (a, o) ∧ f a o = .ok z := by
  have h : Res.bind (p off) _ = .ok z := h
  cases hp : p off with
  | ok x => rw [hp] at h; exact ⟨x.1, x.2, rfl, h⟩
  | exc => rw [hp] at h; cases h
  | ub => rw [hp] at h; cases h
  | abort => rw [hp] at h; cases h

/-- A set with offsets of 64 bits (its length is ffffffff and then eight bytes) is not known: its length is taken for the version. -/
theorem C84_not_wide {len : Nat} {body : List Byte} {u : PubUnit} {us : List PubUnit} {c : Option (List PubUnit)}
    (h : pubnames (some (leBytes 4 0xffffffff ++ (leBytes 8 len ++ body))) none = (.ok (u :: us), c)) : u.version = BitVec.ofNat 16 len ∧ u.length = 0xffff#16 := by
  have hb : leBytes 8 len = leBytes 2 (len % 65536) ++ leBytes 6 (len / 65536) := by
    simp only [leBytes, List.cons_append, List.nil_append, Nat.div_div_eq_div_mul, Nat.reduceMul]
    rw [show len % 65536 % 256 = len % 256 by omega, show len % 65536 / 256 % 256 = len / 256 % 256 by omega]
  generalize hd : leBytes 4 0xffffffff ++ (leBytes 8 len ++ body) = d at h
  have hd0 : d.drop 0 = leBytes 4 0xffffffff ++ (leBytes 2 (len % 65536) ++ (leBytes 6 (len / 65536) ++ body)) := by rw [List.drop_zero, ← hd, hb, List.append_assoc]
  have e1 := reads_u32 0xffffffff (by decide) 0 _ hd0
  have e2 := reads_u16 (len % 65536) (Nat.mod_lt _ (by decide)) _ _ (drop_prefix hd0)
  have hu : ∀ v off, pubUnit d 0 = .ok (v, off) → v.version = BitVec.ofNat 16 len ∧ v.length = 0xffff#16 := by
    intro v off hv
    unfold pubUnit at hv
    obtain ⟨a1, o1, h1, hv⟩ := pubBind_ok hv
    rw [e1] at h1
    cases h1
    obtain ⟨a2, o2, h2, hv⟩ := pubBind_ok hv
    cases h2
    obtain ⟨a3, o3, h3, hv⟩ := pubBind_ok hv
    rw [e2] at h3
    cases h3
    obtain ⟨a4, o4, _, hv⟩ := pubBind_ok hv
    obtain ⟨a5, o5, _, hv⟩ := pubBind_ok hv
    obtain ⟨a6, o6, _, hv⟩ := pubBind_ok hv
    cases hv
    refine ⟨?_, show BitVec.setWidth 16 4294967295#32 = 65535#16 by decide⟩
    apply BitVec.eq_of_toNat_eq
    simp only [BitVec.toNat_ofNat]
    omega
  have hne : (0 : Nat) ≠ d.length := by
    have := congrArg List.length hd0
    simp only [List.length_drop, List.length_append, leBytes_length] at this
    omega
  unfold pubnames at h
  simp only at h
  rw [pubLoop, if_neg hne] at h
  cases hp : pubUnit d 0 with
  | ok x =>
    obtain ⟨v, off⟩ := x
    rw [hp] at h
    simp only [List.nil_append] at h
    obtain ⟨us', hus⟩ := pubLoop_first d d.length off [] v
    generalize pubLoop d d.length off [v] = r at h hus
    obtain ⟨r1, r2⟩ := r
    simp only at hus
    subst hus
    cases r2 with
    | ok _ => cases h; exact hu _ _ hp
    | exc => cases h
    | ub => cases h
    | abort => cases h
  | exc => rw [hp] at h; cases h
  | ub => rw [hp] at h; cases h
  | abort => rw [hp] at h; cases h

/-- A section that ends within the length of a set: the first call throws, every other one gives the sets that had been read until then. -/
theorem C84_not_again {l : List PubSet} (hl : ∀ p ∈ l, p.WF ∧ p.body.length < 65536) {tail : List Byte} (ht : 0 < tail.length) (ht4 : tail.length < 4) (hw : (encodePubSets l ++ tail).length + 65540 < W64) :
    (pubnames (some (encodePubSets l ++ tail)) none).1 = .exc ∧
    ∃ us, us.length = l.length ∧ (pubnames (some (encodePubSets l ++ tail)) (pubnames (some (encodePubSets l ++ tail)) none).2).1 = .ok us := by
  have hcnt := pubSets_count l
  have hlen : (encodePubSets l ++ tail).length = (encodePubSets l).length + tail.length := List.length_append
  have := pubLoop_sets (d := encodePubSets l ++ tail) (by omega) hw l ((encodePubSets l ++ tail).length + 1 - l.length) 0 [] tail hl (by simp) (Nat.zero_le _)
  rw [show (encodePubSets l ++ tail).length + 1 - l.length + l.length = (encodePubSets l ++ tail).length + 1 by omega, Nat.zero_add, List.nil_append] at this
  obtain ⟨f, hf⟩ : ∃ f, (encodePubSets l ++ tail).length + 1 - l.length = f + 1 := ⟨(encodePubSets l ++ tail).length - l.length, by omega⟩
  have hx : pubUnit (encodePubSets l ++ tail) (encodePubSets l).length = .exc := by
    have : getu32 (encodePubSets l ++ tail) (encodePubSets l).length = .exc := getu32_exc _ _ (by omega)
    unfold pubUnit
    show Res.bind (getu32 _ _) _ = _
    rw [this]
    rfl
  have e : pubLoop (encodePubSets l ++ tail) (f + 1) (encodePubSets l).length (l.map fun p => PubSet.read p p.names) = (l.map fun p => PubSet.read p p.names, .exc) := by
    rw [pubLoop, if_neg (by omega), hx]
  rw [hf, e] at this
  have hp : pubnames (some (encodePubSets l ++ tail)) none = (.exc, some (l.map fun p => PubSet.read p p.names)) := by
    unfold pubnames
    simp only
    rw [this]
    rfl
  rw [hp]
  exact ⟨rfl, _, by rw [List.length_map], rfl⟩

/-- The sets of two units: two names and the end; one name, and no end. -/
def pubSample : List PubSet := [⟨2, 0, 100, [(45, [109#8, 97#8, 105#8, 110#8]), (70, [102#8])], true⟩, ⟨2, 100, 50, [(30, [103#8])], false⟩]

theorem pubSample_ok : ∀ p ∈ pubSample, p.WF ∧ p.body.length < 65536 := by
  intro p hp
  rcases List.mem_cons.1 hp with rfl | hp
  · refine ⟨⟨by decide, by decide, by decide, ?_, by decide⟩, by decide⟩
    intro q hq
    rcases List.mem_cons.1 hq with rfl | hq
    · exact ⟨by decide, by decide, by unfold GoodName; decide⟩
    · rcases List.mem_cons.1 hq with rfl | hq
      · exact ⟨by decide, by decide, by unfold GoodName; decide⟩
      · cases hq
  · rcases List.mem_cons.1 hp with rfl | hp
    · refine ⟨⟨by decide, by decide, by decide, ?_, by decide⟩, by decide⟩
      intro q hq
      rcases List.mem_cons.1 hq with rfl | hq
      · exact ⟨by decide, by decide, by unfold GoodName; decide⟩
      · cases hq
    · cases hp

theorem C84_example {c : Option (List PubUnit)} (hc : PubHistory (some (encodePubSets pubSample)) c) :
    ∃ a b, (pubnames (some (encodePubSets pubSample)) c).1 = .ok [a, b] ∧ a.infoLength = 100#32 ∧ a.names = [(45#32, [109#8, 97#8, 105#8, 110#8]), (70#32, [102#8])] ∧ b.infoOffset = 100#32 ∧ b.names = [(30#32, [103#8])] :=
  ⟨_, _, C84_names_partial pubSample_ok (by decide) hc, rfl, rfl, rfl, rfl⟩

theorem C84_not_again_example : ∃ us, us.length = 2 ∧ (pubnames (some (encodePubSets pubSample ++ [1#8])) (pubnames (some (encodePubSets pubSample ++ [1#8])) none).2).1 = .ok us :=
  (C84_not_again pubSample_ok (by decide) (by decide) (by decide)).2

/-- A set with a name of `n` bytes and one of one. -/
def pubSized (n : Nat) : PubSet := ⟨2, 0, 100, [(45, List.replicate n 102#8), (46, [103#8])], true⟩

theorem pubSized_size (n : Nat) : (pubSized n).body.length = n + 25 := by
  rw [pubBody_length]
  show 10 + (pubNameBytes [(45, List.replicate n 102#8), (46, [103#8])]).length + 4 = n + 25
  rw [pubNameBytes_length, pubNameBytes_length, List.length_replicate]
  show 10 + (5 + n + (5 + 1 + 0)) + 4 = n + 25
  omega

theorem pubSized_ok (n : Nat) (hn : n < 100000) : (pubSized n).WF := by
  refine ⟨show 2 < 2 ^ 16 by decide, show 0 < 2 ^ 32 by decide, show 100 < 2 ^ 32 by decide, ?_, by rw [pubSized_size]; omega⟩
  intro q hq
  rcases List.mem_cons.1 hq with rfl | hq
  · refine ⟨by simp, by simp, ?_⟩
    intro b hb
    rw [List.eq_of_mem_replicate hb]
    decide
  · rcases List.mem_cons.1 hq with rfl | hq
    · exact ⟨by decide, by decide, by unfold GoodName; decide⟩
    · cases hq

/-- A set of 65546 bytes, with a name of 65521: neither of its names is found. -/
theorem C84_not_long_example : ∃ u us, (pubnames (some ((pubSized 65521).encode ++ [])) none).2 = some (u :: us) ∧ u.names = [] := by
  obtain ⟨u, us, h1, h2, _⟩ := C84_not_long (pubSized_ok 65521 (by decide)) (pre := []) (post := (pubSized 65521).names) rfl (List.cons_ne_nil _ _) (.inl rfl) (by rw [pubSized_size]; decide) (more := []) (by
    have := pubSized_size 65521
    unfold PubSet.encode
    rw [List.append_nil, List.length_append, leBytes_length, this]
    decide)
  exact ⟨u, us, h1, h2⟩

theorem C84_not_wide_example : ∃ u us c, pubnames (some (leBytes 4 0xffffffff ++ (leBytes 8 16 ++ (leBytes 2 2 ++ leBytes 4 0)))) none = (.ok (u :: us), c) ∧ u.version = 16#16 :=
  ⟨⟨0xffff#16, 16#16, 0#32, 0x20000#32, []⟩, [], some [⟨0xffff#16, 16#16, 0#32, 0x20000#32, []⟩], by rfl, rfl⟩

end Pstack.Props
