import Verif.Proof.Ranges
import Verif.Spec.Lookup
/-
The search for the unit of an address.
-/
namespace Pstack.Props
open Pstack.Reader Pstack.Spec Pstack.Dwarf Pstack.Die

/-! ### Maps -/

/-- The entries put into the map, one after the other. -/
def putAll (E : List (Nat × Nat × Nat)) (m : ARanges) : ARanges := E.foldl (fun m e => m.assign e.1 e.2) m

theorem putAll_append (E F : List (Nat × Nat × Nat)) (m : ARanges) : putAll (E ++ F) m = putAll F (putAll E m) := List.foldl_append

theorem putAll_sorted (E : List (Nat × Nat × Nat)) : ∀ {m : ARanges}, OMap.Sorted m → OMap.Sorted (putAll E m) := by
  induction E with
  | nil => intro m h; exact h
  | cons e E ih => intro m h; exact ih (OMap.sorted_assign h)

theorem putAll_mem (E : List (Nat × Nat × Nat)) : ∀ {m : ARanges}, OMap.Sorted m → ∀ {e}, e ∈ putAll E m → e ∈ E ∨ e ∈ m := by
  induction E with
  | nil => intro m _ e h; exact .inr h
  | cons a E ih =>
    intro m hs e h
    rcases ih (OMap.sorted_assign hs) h with h | h
    · exact .inl (List.mem_cons_of_mem _ h)
    · rcases (OMap.mem_assign hs).1 h with h | h
      · left; rw [h]; exact List.mem_cons_self
      · exact .inr h.1

theorem putAll_key_old (E : List (Nat × Nat × Nat)) : ∀ {m : ARanges}, OMap.Sorted m → ∀ {k}, (∃ e ∈ m, e.1 = k) → ∃ e ∈ putAll E m, e.1 = k := by
  induction E with
  | nil => intro m _ k h; exact h
  | cons a E ih =>
    intro m hs k h
    refine ih (OMap.sorted_assign hs) ?_
    obtain ⟨e, h1, h2⟩ := h
    by_cases hk : k = a.1
    · exact ⟨(a.1, a.2), (OMap.mem_assign hs).2 (.inl rfl), hk.symm⟩
    · exact ⟨e, (OMap.mem_assign hs).2 (.inr ⟨h1, by omega⟩), h2⟩

theorem putAll_key (E : List (Nat × Nat × Nat)) : ∀ {m : ARanges}, OMap.Sorted m → ∀ {k}, (∃ e ∈ E, e.1 = k) → ∃ e ∈ putAll E m, e.1 = k := by
  induction E with
  | nil => intro m _ k h; obtain ⟨e, h, _⟩ := h; cases h
  | cons a E ih =>
    intro m hs k h
    obtain ⟨e, h1, h2⟩ := h
    rcases List.mem_cons.1 h1 with h1 | h1
    · refine putAll_key_old E (OMap.sorted_assign hs) ⟨(a.1, a.2), (OMap.mem_assign hs).2 (.inl rfl), ?_⟩
      rw [← h2, h1]
    · exact ih (OMap.sorted_assign hs) ⟨e, h1, h2⟩

/-- What is not put again stays. -/
theorem putAll_keep (E : List (Nat × Nat × Nat)) : ∀ {m : ARanges}, OMap.Sorted m → ∀ {e}, e ∈ m → (∀ a ∈ E, a.1 = e.1 → a = e) → e ∈ putAll E m := by
  induction E with
  | nil => intro m _ e h _; exact h
  | cons a E ih =>
    intro m hs e h hn
    refine ih (OMap.sorted_assign hs) ?_ (fun b hb => hn b (List.mem_cons_of_mem _ hb))
    by_cases hk : a.1 = e.1
    · have := hn a List.mem_cons_self hk
      rw [← this]; exact (OMap.mem_assign hs).2 (.inl rfl)
    · exact (OMap.mem_assign hs).2 (.inr ⟨h, fun e => hk e.symm⟩)

/-- What is put, and not put otherwise after that, is there. -/
theorem putAll_put (E : List (Nat × Nat × Nat)) : ∀ {m : ARanges}, OMap.Sorted m → ∀ {e}, e ∈ E → (∀ a ∈ E, a.1 = e.1 → a = e) → e ∈ putAll E m := by
  induction E with
  | nil => intro m _ e h; cases h
  | cons a E ih =>
    intro m hs e h hn
    rcases List.mem_cons.1 h with h | h
    · refine putAll_keep E (OMap.sorted_assign hs) ?_ (fun b hb => hn b (List.mem_cons_of_mem _ hb))
      rw [h]; exact (OMap.mem_assign hs).2 (.inl rfl)
    · exact ih (OMap.sorted_assign hs) h (fun b hb => hn b (List.mem_cons_of_mem _ hb))

/-- What a search in the map gives: the range whose end is the next after the address. -/
theorem findRange_cases {m : ARanges} (hs : OMap.Sorted m) (addr : BitVec 64) :
    ((∀ e ∈ m, e.1 ≤ addr.toNat) ∧ findRange m addr = none) ∨
    ∃ e ∈ m, addr.toNat < e.1 ∧ (∀ e' ∈ m, addr.toNat < e'.1 → e.1 ≤ e'.1) ∧
      findRange m addr = if (BitVec.ofNat 64 e.1 - BitVec.ofNat 64 e.2.1).toNat ≤ addr.toNat then some e.2.2 else none := by
  have hp : (fun e : Nat × Nat × Nat => decide (e.1 ≤ addr.toNat)) = (fun e => decide (e.1 < addr.toNat + 1)) := by
    funext e; congr 1; exact propext Nat.lt_succ_iff.symm
  unfold findRange
  rw [hp]
  cases h : List.dropWhile (fun e => decide (e.1 < addr.toNat + 1)) m with
  | nil =>
    left
    refine ⟨?_, rfl⟩
    intro e he
    rcases Nat.lt_or_ge addr.toNat e.1 with hlt | hge
    · obtain ⟨e', t, h1, _⟩ := OMap.lowerBound_le hs he (k := addr.toNat + 1) hlt
      unfold OMap.lowerBound at h1
      rw [h] at h1; cases h1
    · exact hge
  | cons e t =>
    right
    have hb : OMap.lowerBound (addr.toNat + 1) m = e :: t := h
    obtain ⟨h1, h2⟩ := OMap.lowerBound_cons hb
    refine ⟨e, h1, h2, ?_, rfl⟩
    intro e' he' hlt
    obtain ⟨e2, t2, h3, h4⟩ := OMap.lowerBound_le hs he' (k := addr.toNat + 1) hlt
    rw [hb] at h3; injection h3 with h3 _; subst h3; exact h4

/-! ### .debug_aranges -/

def setEntries (x : ArangeSet) : List (Nat × Nat × Nat) := (x.tuples ++ [(0, 0)]).map (fun (t : Nat × Nat) => (t.1 + t.2, t.2, x.unit))

def encodeTuples (w : Nat) (l : List (Nat × Nat)) : List Byte := (l.map (fun t => leBytes w t.1 ++ leBytes w t.2)).flatten

theorem tuples_spec {sec : List Byte} {w next uo : Nat} (hw : w = 4 ∨ w = 8) (ts : List (Nat × Nat)) : ∀ (off rounds : Nat) (rest : List Byte) (m : ARanges),
    (∀ t ∈ ts, t.1 < 256 ^ w ∧ t.2 < 256 ^ w ∧ t.1 + t.2 < 2 ^ 64) → sec.drop off = encodeTuples w ts ++ rest → next = off + (encodeTuples w ts).length → ts.length < rounds →
    arangeTuples sec w next uo rounds off m = .ok (putAll (ts.map (fun t => (t.1 + t.2, t.2, uo))) m, next) := by
  have hp := pow256_le w (by omega)
  induction ts with
  | nil =>
    intro off rounds rest m hok hd hn hr
    obtain ⟨r, rfl⟩ : ∃ r, rounds = r + 1 := ⟨rounds - 1, by omega⟩
    have : next = off := by rw [hn]; simp [encodeTuples]
    rw [arangeTuples, if_neg (by omega), this]
    rfl
  | cons t ts ih =>
    intro off rounds rest m hok hd hn hr
    obtain ⟨r, rfl⟩ : ∃ r, rounds = r + 1 := ⟨rounds - 1, by omega⟩
    rw [List.length_cons] at hr
    obtain ⟨h1, h2, h3⟩ := hok t List.mem_cons_self
    have hd' : sec.drop off = leBytes w t.1 ++ (leBytes w t.2 ++ (encodeTuples w ts ++ rest)) := by rw [hd]; simp [encodeTuples]
    have hlen : (encodeTuples w (t :: ts)).length = w + (w + (encodeTuples w ts).length) := by simp [encodeTuples, leBytes_length]
    have r1 := reads_uint w t.1 (by omega) h1 _ _ hd'
    have hd2 := drop_prefix hd'
    have r2 := reads_uint w t.2 (by omega) h2 _ _ hd2
    have hd3 := drop_prefix hd2
    rw [leBytes_length] at r1 hd2 r2 hd3
    rw [leBytes_length] at r2 hd3
    rw [arangeTuples, if_pos (by omega), r1, Res.bind_ok]
    simp only
    rw [r2, Res.bind_ok]
    simp only
    rw [ih (off + w + w) r rest _ (fun t ht => hok t (List.mem_cons_of_mem _ ht)) hd3 (by omega) (by omega)]
    rw [BitVec.toNat_add, word64 _ (by omega), word64 _ (by omega), Nat.mod_eq_of_lt h3]
    rfl

theorem set_spec {sec : List Byte} (hfit : sec.length < 2 ^ 64) {x : ArangeSet} (hx : x.WF) {start : Nat} {rest : List Byte} (hd : sec.drop start = x.encode ++ rest) (m : ARanges) :
    arangeSet sec start m = .ok (putAll (setEntries x) m, start + x.encode.length) := by
  have hbl : x.body.length = 12 + (encodeTuples x.addrSize (x.tuples ++ [(0, 0)])).length := by
    simp [ArangeSet.body, encodeTuples, leBytes_length, hx.pad]; omega
  have hel : x.encode.length = 4 + x.body.length := by simp [ArangeSet.encode, leBytes_length]
  have hle : start + x.encode.length ≤ sec.length := by
    have := congrArg List.length hd
    rw [List.length_drop, List.length_append] at this
    omega
  have hd0 : sec.drop start = leBytes 4 x.body.length ++ (x.body ++ rest) := by rw [hd, ArangeSet.encode, List.append_assoc]
  have r0 := getlength_32 sec (x.body ++ rest) x.body.length start hx.size hd0
  have hd1 := drop_prefix hd0
  rw [leBytes_length] at hd1
  have hd1' : sec.drop (start + 4) = leBytes 2 x.version ++ (leBytes 4 x.unit ++ (leBytes 1 x.addrSize ++ (0#8 :: (x.pad ++ (encodeTuples x.addrSize (x.tuples ++ [(0, 0)]) ++ rest))))) := by
    rw [hd1]; simp [ArangeSet.body, encodeTuples]
  have r1 := reads_u16 x.version hx.version _ _ hd1'
  have hd2 := drop_prefix hd1'
  have r2 := reads_u32 x.unit hx.unit _ _ hd2
  have hd3 := drop_prefix hd2
  have r3 := reads_byte x.addrSize _ _ hd3
  have hd4 := drop_prefix hd3
  have r4 := getu8_prefix sec _ _ _ hd4
  have hd5 := drop_prefix (bs := [0#8]) hd4
  have hd6 := drop_prefix hd5
  rw [leBytes_length] at r1 hd2 r2 hd3 r3 hd4 r4 hd5 hd6
  rw [leBytes_length] at r2 hd3 r3 hd4 r4 hd5 hd6
  rw [leBytes_length] at r3 hd4 r4 hd5 hd6
  rw [hx.pad] at hd6
  have hoff : start + 4 + 2 + 4 + 1 + [0#8].length + 4 = start + 16 := by simp
  rw [hoff] at hd6
  have ha : (BitVec.ofNat 8 x.addrSize) ≠ 0 ∧ (BitVec.ofNat 8 x.addrSize).toNat = x.addrSize := by rcases hx.addrSize with h | h <;> rw [h] <;> decide
  have hu : (BitVec.ofNat 32 x.unit).toNat = x.unit := by rw [BitVec.toNat_ofNat]; exact Nat.mod_eq_of_lt hx.unit
  unfold arangeSet
  rw [r0, Res.bind_ok]
  simp only
  rw [r1, Res.bind_ok]
  simp only
  rw [r2, Res.bind_ok]
  simp only
  rw [r3, Res.bind_ok]
  simp only
  rw [r4, Res.bind_ok]
  simp only
  rw [if_neg (fun h => h rfl), if_neg ha.1, ha.2, hu]
  have hal : (start + 4 + 2 + 4 + 1 + 1 + (x.addrSize * 2 - (start + 4 + 2 + 4 + 1 + 1 - start) % (x.addrSize * 2))) % W64 = start + 16 := by
    have e : start + 4 + 2 + 4 + 1 + 1 - start = 12 := by omega
    rw [e, W64_eq]
    rcases hx.addrSize with h | h <;> rw [h] <;> simp <;> omega
  have hnx : (start + 4 + x.body.length) % W64 = start + 4 + x.body.length := by
    rw [W64_eq]; exact Nat.mod_eq_of_lt (by omega)
  rw [hal, hnx]
  refine (tuples_spec hx.addrSize (x.tuples ++ [(0, 0)]) (start + 16) (sec.length + 1) rest m ?_ hd6 (by omega) ?_).trans ?_
  · intro t ht
    rcases List.mem_append.1 ht with ht | ht
    · exact hx.tuples t ht
    · simp at ht; subst ht
      exact ⟨Nat.pow_pos (by decide), Nat.pow_pos (by decide), by decide⟩
  · have : (x.tuples ++ [(0, 0)]).length ≤ (encodeTuples x.addrSize (x.tuples ++ [(0, 0)])).length := by
      refine flatten_ge _ _ ?_
      intro t _ h
      have := congrArg List.length h
      simp [leBytes_length] at this
      rcases hx.addrSize with h | h <;> omega
    omega
  · rw [hel]
    congr 2
    omega

theorem sets_spec {sec : List Byte} (hfit : sec.length < 2 ^ 64) (l : List ArangeSet) : ∀ (off rounds : Nat) (m : ARanges),
    (∀ x ∈ l, x.WF) → sec.drop off = encodeSets l → off ≤ sec.length → l.length < rounds → arangeSets sec rounds off m = .ok (putAll (l.map setEntries).flatten m) := by
  induction l with
  | nil =>
    intro off rounds m hwf hd hle hr
    obtain ⟨r, rfl⟩ : ∃ r, rounds = r + 1 := ⟨rounds - 1, by omega⟩
    have : off = sec.length := by
      have := congrArg List.length hd
      simp [encodeSets] at this; omega
    rw [arangeSets, if_pos this]
    rfl
  | cons x l ih =>
    intro off rounds m hwf hd hle hr
    obtain ⟨r, rfl⟩ : ∃ r, rounds = r + 1 := ⟨rounds - 1, by omega⟩
    rw [List.length_cons] at hr
    have hd' : sec.drop off = x.encode ++ encodeSets l := by rw [hd]; simp [encodeSets]
    have hlen := congrArg List.length hd'
    rw [List.length_drop, List.length_append] at hlen
    have : 4 ≤ x.encode.length := by simp [ArangeSet.encode, leBytes_length]
    rw [arangeSets, if_neg (by omega), set_spec hfit (hwf x List.mem_cons_self) hd' m, Res.bind_ok]
    simp only
    rw [ih _ r _ (fun y hy => hwf y (List.mem_cons_of_mem _ hy)) (drop_prefix hd') (by omega) (by omega), List.map_cons, List.flatten_cons, putAll_append]

theorem load_sets {sec : Option (List Byte)} {sets : List ArangeSet} (h : ArangesOk sec sets) (cached : Bool) :
    loadMap sec ⟨none, cached⟩ = .ok (putAll (sets.map setEntries).flatten []) := by
  rcases h.bytes with hb | ⟨hb, hn⟩
  · subst hb
    unfold loadMap
    simp only
    refine sets_spec h.fit sets 0 _ [] h.wf (by rw [List.drop_zero]) (Nat.zero_le _) ?_
    have : sets.length ≤ (encodeSets sets).length := by
      refine flatten_ge _ _ ?_
      intro x _ h
      have := congrArg List.length h
      simp [ArangeSet.encode, leBytes_length] at this
    omega
  · subst hb; subst hn; rfl

theorem mem_sets {sets : List ArangeSet} {k v uo : Nat} (h : (k, v, uo) ∈ (sets.map setEntries).flatten) : k = 0 ∨ ∃ lo, SetRange sets uo lo k ∧ v = k - lo := by
  obtain ⟨l, h1, h2⟩ := List.mem_flatten.1 h
  obtain ⟨x, h3, rfl⟩ := List.mem_map.1 h1
  unfold setEntries at h2
  obtain ⟨t, h4, h5⟩ := List.mem_map.1 h2
  injection h5 with h5 h6; injection h6 with h6 h7
  rcases List.mem_append.1 h4 with h4 | h4
  · right
    exact ⟨t.1, ⟨x, h3, h7, t.2, h4, h5.symm⟩, by omega⟩
  · simp at h4; subst h4; left; simpa using h5.symm

theorem sets_mem {sets : List ArangeSet} {uo lo hi : Nat} (h : SetRange sets uo lo hi) : (hi, hi - lo, uo) ∈ (sets.map setEntries).flatten := by
  obtain ⟨x, h1, h2, n, h3, h4⟩ := h
  refine List.mem_flatten.2 ⟨setEntries x, List.mem_map.2 ⟨x, h1, rfl⟩, ?_⟩
  unfold setEntries
  refine List.mem_map.2 ⟨(lo, n), List.mem_append_left _ h3, ?_⟩
  simp only [h2, h4]
  congr 2; omega

/-! ### The roots of units -/

section
variable {d : Sections} {xs : List DieUnit} (hok : InfoOk d xs)
include hok

/-- An attribute that neither the entry has, nor another it refers to. -/
theorem getAttr_no {s : IState} (hs : ISt d xs s) {y : DIE} {uo : Nat} {x : DieUnit} {o : Nat} {e : DieEntry} (hg : GoodDie d xs s y uo x o e) {name : Nat}
    (h0 : e.find name = none) (h1 : e.find 0x31 = none) (h2 : e.find 0x47 = none) {fuel : Nat} (hf : 1 ≤ fuel) (isLocal : Bool) : getAttr d fuel y name isLocal s = .ok (none, s) := by
  obtain ⟨f, rfl⟩ : ∃ f, fuel = f + 1 := ⟨fuel - 1, by omega⟩
  rw [getAttr, own_spec hok hs hg, Res.bind_ok, h0]
  simp only [Option.map_none]
  split
  · rfl
  · rw [own_spec hok hs hg, Res.bind_ok, h1]
    simp only [Option.map_none, toDIE_none, Res.bind_ok, getAttr.other]
    rw [own_spec hok hs hg, Res.bind_ok, h2]
    rfl

variable (hfit : SectionsFit d)
include hfit

theorem attrNumber_unique {s : IState} (hs : ISt d xs s) {y : DIE} {uo : Nat} {x : DieUnit} {o : Nat} {e : DieEntry} (hg : GoodDie d xs s y uo x o e) {i n n' : Nat}
    (h : AttrNumber d x e i n) (h' : AttrNumber d x e i n') : n = n' := by
  obtain ⟨a, v, f1, f2, f3⟩ := h
  obtain ⟨a', v', g1, g2, g3⟩ := h'
  obtain ⟨w, s1, k1, k2, _⟩ := toNum_spec hok hfit hs hg f1 f2 f3 (fuel := 1) (Nat.le_refl _)
  obtain ⟨w', s1', k1', k2', _⟩ := toNum_spec hok hfit hs hg g1 g2 g3 (fuel := 1) (Nat.le_refl _)
  rw [k1] at k1'; injection k1' with k1'; injection k1' with k1' _
  rw [← k2, ← k2', k1']

/-- The low and the high address of the root of a unit. -/
theorem rootBounds_unique {s : IState} (hs : ISt d xs s) {y : DIE} {uo : Nat} {x : DieUnit} {o : Nat} (hg : GoodDie d xs s y uo x o x.tree.root) {lo hi lo' hi' : Nat}
    (h : RootBounds d x lo hi) (h' : RootBounds d x lo' hi') : lo = lo' ∧ hi = hi' := by
  obtain ⟨⟨i, j, a, b, n, f1, f2, _, f4, f5, f6, f7, _, _, f8⟩, f9⟩ := h
  obtain ⟨⟨i', j', a', b', n', g1, g2, _, g4, g5, g6, g7, _, _, g8⟩, g9⟩ := h'
  rw [f1] at g1; injection g1 with g1; subst g1
  rw [f5] at g5; injection g5 with g5; subst g5
  rw [f6] at g6; injection g6 with g6; subst g6
  have e1 := attrNumber_unique hok hfit hs hg f4 g4
  have e2 := attrNumber_unique hok hfit hs hg f7 g7
  have h9 := f9 j b f5 f6
  refine ⟨e1, ?_⟩
  rcases f8 with ⟨q1, q2⟩ | ⟨⟨_, q1⟩, q2⟩ <;> rcases g8 with ⟨q3, q4⟩ | ⟨⟨_, q3⟩, q4⟩
  · omega
  · rcases q1 with q1 | q1
    · exact absurd q1 q3
    · exact absurd q1 h9
  · rcases q3 with q3 | q3
    · exact absurd q3 q1
    · exact absurd q3 h9
  · omega

theorem addBounds_spec {s : IState} (hs : ISt d xs s) {y : DIE} {uo : Nat} {x : DieUnit} {o : Nat} (hg : GoodDie d xs s y uo x o x.tree.root) {lo hi : Nat}
    (h : RootBounds d x lo hi) (hle : lo ≤ hi) {fuel : Nat} (h1 : 1 ≤ fuel) (m : ARanges) : ∃ i j s', x.tree.root.find 0x11 = some i ∧ x.tree.root.find 0x12 = some j ∧
      addBounds d fuel uo (some ⟨y, i⟩) (some ⟨y, j⟩) m s = .ok (m.assign hi (hi - lo, uo), s') ∧ Kept d xs s s' := by
  obtain ⟨⟨i, j, a, b, n, f1, f2, f3, ⟨a', va, f4, f5, f6⟩, f7, f8, ⟨b', vb, f9, f10, f11⟩, hlo, hhi, f12⟩, f13⟩ := h
  rw [f2] at f4; injection f4 with f4; subst f4
  rw [f8] at f9; injection f9 with f9; subst f9
  obtain ⟨lw, s1, k1, k2, k3, _⟩ := toNum_spec hok hfit hs hg f2 f5 f6 h1
  have hg1 := hg.ext k3.2
  obtain ⟨hw, s2, l1, l2, l3, _⟩ := toNum_spec hok hfit k3.1 hg1 f8 f10 f11 h1
  have flb : Attr.form s2 ⟨y, j⟩ = .ok b.form := by
    obtain ⟨b2, _, _, _, g1, _, _, _, g2, _⟩ := attr_shows hok l3.1 (hg1.ext l3.2) f8
    rw [f8] at g1; injection g1 with g1; subst g1; exact g2
  refine ⟨i, j, s2, f1, f7, ?_, k3.trans l3⟩
  unfold addBounds
  simp only
  rw [k1, Res.bind_ok]
  simp only
  rw [l1, Res.bind_ok]
  simp only
  rw [flb, Res.bind_ok]
  have key : (if b.form ≠ 0x01 then hw + lw else hw).toNat = hi := by
    rcases f12 with ⟨q1, q2⟩ | ⟨⟨_, q1⟩, q2⟩
    · have : b.form = 0x01 := by
        rcases q1 with q1 | q1
        · exact q1
        · exact absurd q1 (f13 j b f7 f8)
      rw [if_neg (fun h => h this)]; omega
    · rw [if_pos q1, BitVec.toNat_add, k2, l2, Nat.mod_eq_of_lt (by omega)]; omega
  rw [key, BitVec.toNat_sub_of_le (by rw [BitVec.le_def, key, k2]; exact hle), key, k2]

variable (hrefs : RefsOk xs)
include hrefs

theorem dieRanges_root {s : IState} (hs : ISt d xs s) (hr : RangesRight d xs s) {y : DIE} {uo : Nat} {x : DieUnit} (hg : GoodDie d xs s y uo x (uo + x.rootPos) x.tree.root)
    {l : List (Nat × Nat)} (h : RootRanges d xs uo x l) {fuel : Nat} (h1 : 1 ≤ fuel) : ∃ s', dieRanges d fuel y s = .ok (some l, s') := by
  have hL := h
  obtain ⟨i, n, base, f1, f2, _, f3, f4, _⟩ := h
  have hlow : ∃ low bw s2, getAttr d fuel y 0x11 false s = .ok (low, s) ∧ numOr0 d fuel low s = .ok (bw, s2) := by
    rcases f3 with ⟨k, q1, ⟨a, v, q2, q3, q4⟩, _⟩ | ⟨hn, _⟩
    · obtain ⟨w, s2, k1, _⟩ := toNum_spec hok hfit hs hg q2 q3 q4 h1
      exact ⟨_, w, s2, getAttr_own hok hs hg q1 h1 false, k1⟩
    · exact ⟨none, 0, s, getAttr_no hok hs hg hn.1 hn.2.1 hn.2.2 h1 false, rfl⟩
  obtain ⟨low, bw, s2, g1, g3⟩ := hlow
  have hb := base_arg hok hfit hs hg (low_inherited hok hfit hrefs hs hg h1 g1) h1 g3
  have hlg : GoodOpt d xs s low := (getAttr_keep hok hrefs hs ⟨uo, x, _, _, hg⟩ g1).2
  have k3 := numOr0_keep hok hrefs hs hlg g3
  obtain ⟨s', k⟩ := unitRanges_spec hok hfit k3.1 (hr.of_eq k3.2.2) (hg.ext k3.2) hL hb h1
  refine ⟨s', ?_⟩
  unfold dieRanges
  rw [getAttr_own hok hs hg f1 h1 false, Res.bind_ok]
  simp only
  rw [g1, Res.bind_ok]
  simp only
  rw [g3, Res.bind_ok]
  simp only
  rw [k, Res.bind_ok]

/-- The entries for a unit: those for its low and high address and those for its list of ranges. -/
def UnitAdds (d : Sections) (xs : List DieUnit) (uo : Nat) (x : DieUnit) (E : List (Nat × Nat × Nat)) : Prop :=
  (∀ k v u, (k, v, u) ∈ E → u = uo ∧ ((∃ lo, RootBounds d x lo k ∧ v = k - lo) ∨ ∃ l, RootRanges d xs uo x l ∧ (v, k) ∈ l)) ∧
  (∀ lo hi, RootBounds d x lo hi → ∃ e ∈ E, e.1 = hi) ∧ (∀ l lo hi, RootRanges d xs uo x l → (lo, hi) ∈ l → ∃ e ∈ E, e.1 = hi)

/-- What is remembered is right, ranges included. -/
def KeptB (d : Sections) (xs : List DieUnit) (s s' : IState) : Prop := KeptR d xs s s' ∧ RangesRight d xs s'

theorem addUnit_spec (hroots : RootsOk d xs) {sets : List ArangeSet} (hag : RangesAgree d xs sets) {s : IState} (hs : ISt d xs s) (hr : RangesRight d xs s) {uo : Nat} {x : DieUnit}
    (hp : (uo, x) ∈ placeUnits 0 xs) {u : Die.Unit} (hu : openUnit d.info d.abbr uo = .ok u) {fuel : Nat} (h1 : 1 ≤ fuel) (m : ARanges) :
    ∃ E s', addUnit d fuel u m s = .ok (putAll E m, s') ∧ UnitAdds d xs uo x E ∧ KeptB d xs s s' := by
  obtain ⟨r1, r2, r3, r4⟩ := hroots uo x hp
  obtain ⟨y, s1, g1, g2, g3⟩ := root_good hok hs hp hu
  have huo : u.offset = uo := by
    obtain ⟨u', t, hop⟩ := opened hok hp
    have := hop.isOpen; rw [hu] at this; injection this with this
    rw [this]; exact hop.off
  have own : ∀ name, getAttr d fuel y name false s1 = .ok ((x.tree.root.find name).map (⟨y, ·⟩), s1) := by
    intro name
    cases hf : x.tree.root.find name with
    | none => exact getAttr_no hok g2.1 g3 hf r1 r2 h1 false
    | some i => exact getAttr_own hok g2.1 g3 hf h1 false
  -- the low and the high address
  have hb : ∃ B s2, addBounds d fuel uo ((x.tree.root.find 0x11).map (⟨y, ·⟩)) ((x.tree.root.find 0x12).map (⟨y, ·⟩)) m s1 = .ok (putAll B m, s2) ∧ Kept d xs s1 s2 ∧
      (∀ k v w, (k, v, w) ∈ B → w = uo ∧ ∃ lo, RootBounds d x lo k ∧ v = k - lo) ∧ ∀ lo hi, RootBounds d x lo hi → ∃ e ∈ B, e.1 = hi := by
    rcases r3 with h | h | ⟨lo, hi, h⟩
    · refine ⟨[], s1, by rw [h]; rfl, Kept.refl g2.1, (fun _ _ _ h => nomatch h), ?_⟩
      rintro lo hi ⟨⟨i, j, a, b, n, f1, _⟩, _⟩
      rw [h] at f1; cases f1
    · refine ⟨[], s1, ?_, Kept.refl g2.1, (fun _ _ _ h => nomatch h), ?_⟩
      · rw [h]
        cases x.tree.root.find 0x11 <;> rfl
      · rintro lo hi ⟨⟨i, j, a, b, n, _, _, _, _, f1, _⟩, _⟩
        rw [h] at f1; cases f1
    · have hle := (hag.some uo lo hi (.inr (.inl ⟨x, hp, h⟩))).1
      obtain ⟨i, j, s2, k1, k2, k3, k4⟩ := addBounds_spec hok hfit g2.1 g3 h (by omega) h1 m
      refine ⟨[(hi, hi - lo, uo)], s2, by rw [k1, k2]; exact k3, k4, ?_, ?_⟩
      · intro k v w hm
        simp at hm
        obtain ⟨rfl, rfl, rfl⟩ := hm
        exact ⟨rfl, lo, h, rfl⟩
      · intro lo' hi' h'
        exact ⟨_, List.mem_singleton.2 rfl, (rootBounds_unique hok hfit g2.1 g3 h h').2⟩
  obtain ⟨B, s2, b1, b2, b3, b4⟩ := hb
  have g3' := g3.ext b2.2
  have hr2 : RangesRight d xs s2 := (hr.of_eq g2.2.2).of_eq b2.2.2
  -- the list of ranges
  have hl : ∃ L s3, dieRanges d fuel y s2 = .ok (L, s3) ∧ KeptR d xs s2 s3 ∧ RangesRight d xs s3 ∧ (∀ lo hi, (∃ l, L = some l ∧ (lo, hi) ∈ l) → ∃ l, RootRanges d xs uo x l ∧ (lo, hi) ∈ l) ∧
      ∀ l, RootRanges d xs uo x l → L = some l := by
    rcases r4 with h | ⟨l, h⟩
    · refine ⟨none, s2, ?_, (Kept.refl b2.1).toR, hr2, ?_, ?_⟩
      · unfold dieRanges
        rw [getAttr_no hok b2.1 g3' h r1 r2 h1 false, Res.bind_ok]
      · rintro lo hi ⟨l, h, _⟩; cases h
      · rintro l ⟨i, n, base, f1, _⟩
        rw [h] at f1; cases f1
    · obtain ⟨s3, k⟩ := dieRanges_root hok hfit hrefs b2.1 hr2 g3' h h1
      refine ⟨some l, s3, k, dieRanges_keep hok hrefs b2.1 ⟨_, _, _, _, g3'⟩ k, dieRanges_right hok hfit hrefs b2.1 hr2 g3' k, ?_, ?_⟩
      · rintro lo hi ⟨l', e, hm⟩
        injection e with e; subst e
        exact ⟨l, h, hm⟩
      · intro l' h'
        obtain ⟨s3', k'⟩ := dieRanges_root hok hfit hrefs b2.1 hr2 g3' h' h1
        rw [k] at k'; injection k' with k'; injection k'
  obtain ⟨L, s3, l1, l2, l3, l4, l5⟩ := hl
  refine ⟨B ++ ((L.getD []).map (fun r => (r.2, r.1, uo))), s3, ?_, ⟨?_, ?_, ?_⟩, (g2.trans b2).toR.trans l2, l3⟩
  · unfold addUnit
    rw [g1, Res.bind_ok]
    simp only
    rw [own 0x11, Res.bind_ok]
    simp only
    rw [own 0x12, Res.bind_ok]
    simp only
    rw [huo, b1, Res.bind_ok]
    simp only
    rw [l1, Res.bind_ok, putAll_append]
    congr 2
    cases L with
    | none => rfl
    | some l =>
      simp only [addList, Option.getD_some, putAll, List.foldl_map]
  · intro k v w hm
    rcases List.mem_append.1 hm with hm | hm
    · obtain ⟨e, q⟩ := b3 k v w hm
      exact ⟨e, .inl q⟩
    · obtain ⟨r, q1, q2⟩ := List.mem_map.1 hm
      injection q2 with q2 q3; injection q3 with q3 q4
      refine ⟨q4.symm, .inr ?_⟩
      cases L with
      | none => cases q1
      | some l => exact l4 v k ⟨l, rfl, by rw [← q2, ← q3]; exact q1⟩
  · intro lo hi h
    obtain ⟨e, q1, q2⟩ := b4 lo hi h
    exact ⟨e, List.mem_append_left _ q1, q2⟩
  · intro l lo hi h hm
    refine ⟨(hi, lo, uo), List.mem_append_right _ (List.mem_map.2 ⟨(lo, hi), ?_, rfl⟩), rfl⟩
    rw [l5 l h]; exact hm

/-- The entries for some units. -/
def UnitsAdd (d : Sections) (xs : List DieUnit) (ps : List (Nat × DieUnit)) (E : List (Nat × Nat × Nat)) : Prop :=
  (∀ k v u, (k, v, u) ∈ E → ∃ x, (u, x) ∈ ps ∧ ((∃ lo, RootBounds d x lo k ∧ v = k - lo) ∨ ∃ l, RootRanges d xs u x l ∧ (v, k) ∈ l)) ∧
  ∀ uo x, (uo, x) ∈ ps → (∀ lo hi, RootBounds d x lo hi → ∃ e ∈ E, e.1 = hi) ∧ (∀ l lo hi, RootRanges d xs uo x l → (lo, hi) ∈ l → ∃ e ∈ E, e.1 = hi)

theorem addUnits_spec (hroots : RootsOk d xs) {sets : List ArangeSet} (hag : RangesAgree d xs sets) {fuel : Nat} (h1 : 1 ≤ fuel) (ys : List DieUnit) :
    ∀ (a : List DieUnit) (y : DieUnit) (rounds : Nat) (u : Die.Unit) (m : ARanges) (s : IState), xs = a ++ y :: ys → ys.length + 1 < rounds →
    openUnit d.info d.abbr (encodeUnits a).length = .ok u → ISt d xs s → RangesRight d xs s →
    ∃ E s', addUnits d fuel rounds (some u) m s = .ok (putAll E m, s') ∧ UnitsAdd d xs (placeUnits (encodeUnits a).length (y :: ys)) E ∧ KeptB d xs s s' := by
  induction ys with
  | nil =>
    intro a y rounds u m s hxs hf hu hs hr
    obtain ⟨f, rfl⟩ : ∃ f, rounds = f + 2 := ⟨rounds - 2, by simp at hf; omega⟩
    have hp : ((encodeUnits a).length, y) ∈ placeUnits 0 xs := by
      rw [hxs, placeUnits_append, Nat.zero_add]; simp [placeUnits]
    obtain ⟨u', t, hop⟩ := opened hok hp
    have : u' = u := by have := hop.isOpen; rw [hu] at this; injection this with this; exact this.symm
    subst this
    obtain ⟨E, s1, g1, g2, g3⟩ := addUnit_spec hok hfit hrefs hroots hag hs hr hp hu h1 m
    have hstop : u'.stop = d.info.length := by
      rw [hop.stop, hok.info, hxs]; simp [encodeUnits]
    refine ⟨E, s1, ?_, ⟨?_, ?_⟩, g3⟩
    · rw [addUnits, g1, Res.bind_ok]
      simp only
      rw [nextUnit, if_pos hstop, Res.bind_ok]
      rfl
    · intro k v w hm
      obtain ⟨e, q⟩ := g2.1 k v w hm
      subst e
      exact ⟨y, by simp [placeUnits], q⟩
    · intro uo x hm
      simp [placeUnits] at hm
      obtain ⟨rfl, rfl⟩ := hm
      exact g2.2
  | cons z ys ih =>
    intro a y rounds u m s hxs hf hu hs hr
    obtain ⟨f, rfl⟩ : ∃ f, rounds = f + 1 := ⟨rounds - 1, by omega⟩
    rw [List.length_cons] at hf
    have hp : ((encodeUnits a).length, y) ∈ placeUnits 0 xs := by
      rw [hxs, placeUnits_append, Nat.zero_add]; simp [placeUnits]
    obtain ⟨u', t, hop⟩ := opened hok hp
    have : u' = u := by have := hop.isOpen; rw [hu] at this; injection this with this; exact this.symm
    subst this
    obtain ⟨E, s1, g1, g2, g3⟩ := addUnit_spec hok hfit hrefs hroots hag hs hr hp hu h1 m
    have hstop : u'.stop = (encodeUnits (a ++ [y])).length := by rw [hop.stop]; simp [encodeUnits]
    have hne : u'.stop ≠ d.info.length := by
      have := unit_ne z
      have hl : d.info.length = (encodeUnits a).length + (y.encode.length + (z.encode.length + (encodeUnits ys).length)) := by
        rw [hok.info, hxs]; simp [encodeUnits]
      rw [hop.stop]; omega
    have hxs' : xs = (a ++ [y]) ++ z :: ys := by rw [hxs]; simp
    have hp' : ((encodeUnits (a ++ [y])).length, z) ∈ placeUnits 0 xs := by
      rw [hxs', placeUnits_append, Nat.zero_add]; simp [placeUnits]
    obtain ⟨v, s2, k1, k2, k3, k4⟩ := unit_start hok hp' g3.1.1
    obtain ⟨F, s3, l1, l2, l3⟩ := ih (a ++ [y]) z f v (putAll E m) s2 hxs' (by omega) k2 k3 (g3.2.of_eq k4.2)
    have hpl : placeUnits (encodeUnits a).length (y :: z :: ys) = ((encodeUnits a).length, y) :: placeUnits (encodeUnits (a ++ [y])).length (z :: ys) := by
      rw [placeUnits]; simp [encodeUnits]
    refine ⟨E ++ F, s3, ?_, ⟨?_, ?_⟩, (g3.1.trans (Kept.toR ⟨k3, k4⟩)).trans l3.1, l3.2⟩
    · rw [addUnits, g1, Res.bind_ok]
      simp only
      rw [nextUnit, if_neg hne, hstop, k1, Res.bind_ok]
      simp only
      rw [Res.bind_ok]
      simp only
      rw [l1, putAll_append]
    · intro k v w hm
      rw [hpl]
      rcases List.mem_append.1 hm with hm | hm
      · obtain ⟨e, q⟩ := g2.1 k v w hm
        subst e
        exact ⟨y, List.mem_cons_self, q⟩
      · obtain ⟨x, q1, q2⟩ := l2.1 k v w hm
        exact ⟨x, List.mem_cons_of_mem _ q1, q2⟩
    · intro uo x hm
      rw [hpl] at hm
      rcases List.mem_cons.1 hm with hm | hm
      · injection hm with e1 e2; subst e1; subst e2
        refine ⟨fun lo hi h => ?_, fun l lo hi h hm => ?_⟩
        · obtain ⟨e, q1, q2⟩ := g2.2.1 lo hi h
          exact ⟨e, List.mem_append_left _ q1, q2⟩
        · obtain ⟨e, q1, q2⟩ := g2.2.2 l lo hi h hm
          exact ⟨e, List.mem_append_left _ q1, q2⟩
      · obtain ⟨q1, q2⟩ := l2.2 uo x hm
        refine ⟨fun lo hi h => ?_, fun l lo hi h hm => ?_⟩
        · obtain ⟨e, q1, q2⟩ := q1 lo hi h
          exact ⟨e, List.mem_append_right _ q1, q2⟩
        · obtain ⟨e, q1, q2⟩ := q2 l lo hi h hm
          exact ⟨e, List.mem_append_right _ q1, q2⟩

/-! ### What is remembered for lookups -/

/-- The map: an entry is for a range, of .debug_aranges or, when the units were looked at, of the roots; and all such ranges are in it. -/
structure MapInv (d : Sections) (xs : List DieUnit) (sets : List ArangeSet) (m : ARanges) (cached : Bool) : Prop where
  sorted : OMap.Sorted m
  sound : ∀ k v uo, (k, v, uo) ∈ m → k = 0 ∨ ∃ lo, (v = k - lo ∧ (SetRange sets uo lo k ∨ (cached = true ∧ BoundsRange d xs uo lo k))) ∨ (cached = true ∧ v = lo ∧ ListRange d xs uo lo k)
  sets : ∀ uo lo hi, SetRange sets uo lo hi → ∃ e ∈ m, e.1 = hi
  roots : cached = true → ∀ uo lo hi, BoundsRange d xs uo lo hi ∨ ListRange d xs uo lo hi → ∃ e ∈ m, e.1 = hi

omit hok hfit hrefs in
theorem map_load {sec : Option (List Byte)} {sets : List ArangeSet} (h : ArangesOk sec sets) (cached : Bool) :
    ∃ m, loadMap sec ⟨none, cached⟩ = .ok m ∧ MapInv d xs sets m false := by
  refine ⟨_, load_sets h cached, ⟨putAll_sorted _ .nil, ?_, ?_, fun h => nomatch h⟩⟩
  · intro k v uo hm
    rcases putAll_mem _ .nil hm with hm | hm
    · rcases mem_sets hm with h | ⟨lo, h1, h2⟩
      · exact .inl h
      · exact .inr ⟨lo, .inl ⟨h2, .inl h1⟩⟩
    · cases hm
  · intro uo lo hi h
    exact putAll_key _ .nil ⟨_, sets_mem h, rfl⟩

theorem map_all (hroots : RootsOk d xs) {sets : List ArangeSet} (hag : RangesAgree d xs sets) (hne : xs ≠ []) {fuel : Nat} {m : ARanges} {cached : Bool}
    (hm : MapInv d xs sets m cached) (h1 : cached = true ∨ 1 ≤ fuel) {s : IState} (hs : ISt d xs s) (hr : RangesRight d xs s) :
    ∃ m' s', addAll d fuel cached m s = .ok (m', s') ∧ MapInv d xs sets m' true ∧ KeptB d xs s s' := by
  cases cached with
  | true => exact ⟨m, s, rfl, hm, ⟨(Kept.refl hs).toR, hr⟩⟩
  | false =>
    have h1 : 1 ≤ fuel := h1.resolve_left (by decide)
    cases hxs : xs with
    | nil => exact absurd hxs hne
    | cons y ys =>
      rw [← hxs]
      have hp : (0, y) ∈ placeUnits 0 xs := by rw [hxs]; simp [placeUnits]
      obtain ⟨u, s1, g1, g2, g3, g4⟩ := unit_start hok hp hs
      have hlen : ys.length + 1 < d.info.length + 2 := by
        have : xs.length ≤ d.info.length := by
          rw [hok.info]
          refine flatten_ge _ _ ?_
          intro x _ h
          have := unit_ne x
          rw [h] at this; cases this
        rw [hxs] at this; simp at this; omega
      obtain ⟨E, s', k1, k2, k3⟩ := addUnits_spec hok hfit hrefs hroots hag h1 ys [] y (d.info.length + 2) u m s1 (by simp [hxs]) hlen g2 g3 (hr.of_eq g4.2)
      have hpl : placeUnits (encodeUnits []).length (y :: ys) = placeUnits 0 xs := by rw [hxs]; rfl
      rw [hpl] at k2
      refine ⟨putAll E m, s', ?_, ⟨putAll_sorted _ hm.sorted, ?_, ?_, ?_⟩, (Kept.toR ⟨g3, g4⟩).trans k3.1, k3.2⟩
      · unfold addAll
        rw [if_neg (by decide), g1, Res.bind_ok]
        exact k1
      · intro k v uo he
        rcases putAll_mem _ hm.sorted he with he | he
        · right
          obtain ⟨x, q1, q2⟩ := k2.1 k v uo he
          rcases q2 with ⟨lo, q2, q3⟩ | ⟨l, q2, q3⟩
          · exact ⟨lo, .inl ⟨q3, .inr ⟨rfl, x, q1, q2⟩⟩⟩
          · exact ⟨v, .inr ⟨rfl, rfl, x, l, q1, q2, q3⟩⟩
        · rcases hm.sound k v uo he with h | ⟨lo, h | h⟩
          · exact .inl h
          · rcases h with ⟨h, h' | h'⟩
            · exact .inr ⟨lo, .inl ⟨h, .inl h'⟩⟩
            · cases h'.1
          · cases h.1
      · intro uo lo hi h
        exact putAll_key_old _ hm.sorted (hm.sets uo lo hi h)
      · intro _ uo lo hi h
        refine putAll_key _ hm.sorted ?_
        rcases h with ⟨x, q1, q2⟩ | ⟨x, l, q1, q2, q3⟩
        · exact (k2.2 uo x q1).1 lo hi q2
        · exact (k2.2 uo x q1).2 l lo hi q2 q3

omit hok hfit hrefs in
/-- The unit named by an entry is one. -/
theorem range_unit {sets : List ArangeSet} (hag : RangesAgree d xs sets) {uo lo hi : Nat} (h : UnitHas d xs sets uo lo hi) : ∃ x, (uo, x) ∈ placeUnits 0 xs := by
  rcases h with ⟨x, h1, h2, _⟩ | ⟨x, h, _⟩ | ⟨x, l, h, _⟩
  · obtain ⟨y, hy⟩ := hag.units x h1
    exact ⟨y, by rw [← h2]; exact hy⟩
  · exact ⟨x, h⟩
  · exact ⟨x, h⟩

omit hok hfit hrefs in
/-- What a search in such a map gives. -/
theorem map_find {sets : List ArangeSet} (hag : RangesAgree d xs sets) {m : ARanges} {cached : Bool} (hm : MapInv d xs sets m cached) (addr : BitVec 64) :
    ((∀ e ∈ m, e.1 ≤ addr.toNat) ∧ findRange m addr = none) ∨
    ∃ uo lo hi, UnitHas d xs sets uo lo hi ∧ addr.toNat < hi ∧ (∀ e ∈ m, addr.toNat < e.1 → hi ≤ e.1) ∧ (∃ e ∈ m, e.1 = hi) ∧
      (((SetRange sets uo lo hi ∨ (cached = true ∧ BoundsRange d xs uo lo hi)) ∧ findRange m addr = if lo ≤ addr.toNat then some uo else none) ∨
        (cached = true ∧ ListRange d xs uo lo hi ∧ findRange m addr = if hi - lo ≤ addr.toNat then some uo else none)) := by
  rcases findRange_cases hm.sorted addr with h | ⟨⟨k, v, uo⟩, h1, h2, h3, h4⟩
  · exact .inl h
  · right
    simp only at h2 h3 h4
    rcases hm.sound k v uo h1 with h | ⟨lo, h⟩
    · omega
    · have hu : UnitHas d xs sets uo lo k := by
        rcases h with ⟨_, h | h⟩ | h
        · exact .inl h
        · exact .inr (.inl h.2)
        · exact .inr (.inr h.2.2)
      obtain ⟨b1, b2⟩ := hag.some uo lo k hu
      have sub : ∀ n, n ≤ k → (BitVec.ofNat 64 k - BitVec.ofNat 64 n).toNat = k - n := by
        intro n hn
        rw [BitVec.toNat_sub_of_le (by rw [BitVec.le_def, word64 _ (by omega), word64 _ (by omega)]; exact hn), word64 _ (by omega), word64 _ (by omega)]
      refine ⟨uo, lo, k, hu, h2, h3, ⟨_, h1, rfl⟩, ?_⟩
      rcases h with ⟨e, h⟩ | ⟨hc, e, h⟩
      · left
        refine ⟨h, ?_⟩
        rw [h4, e, sub _ (by omega)]
        congr 1
        exact propext ⟨fun h => by omega, fun h => by omega⟩
      · right
        refine ⟨hc, h, ?_⟩
        rw [h4, e, sub _ (by omega)]

/-- What is known of a program that looks up units. -/
structure LGood (d : Sections) (xs : List DieUnit) (sets : List ArangeSet) (a : LClient) : Prop where
  good : IGood d xs a.c
  ranges : RangesRight d xs a.c.st
  map : ∀ m, a.t.map = some m → MapInv d xs sets m a.t.cached
  fresh : a.t.map = none → a.t.cached = false

omit hok hfit hrefs in
theorem load_any {sec : Option (List Byte)} {sets : List ArangeSet} (h : ArangesOk sec sets) {a : LClient} (hg : LGood d xs sets a) :
    ∃ m, loadMap sec a.t = .ok m ∧ MapInv d xs sets m a.t.cached := by
  obtain ⟨c, ⟨t, cached⟩⟩ := a
  cases t with
  | some m => exact ⟨m, rfl, hg.map m rfl⟩
  | none =>
    have : cached = false := hg.fresh rfl
    subst this
    exact map_load h false

/-- A lookup: the first search, and if it fails the second, in a map with everything. -/
theorem lookup_spec {sec : Option (List Byte)} {sets : List ArangeSet} (hsec : ArangesOk sec sets) (hroots : RootsOk d xs) (hag : RangesAgree d xs sets) (hne : xs ≠ []) {a : LClient}
    (hg : LGood d xs sets a) (addr : BitVec 64) {fuel : Nat} (h1 : 1 ≤ fuel) :
    ∃ r t s m, lookupUnit d sec fuel addr a.t a.c.st = .ok (r, t, s) ∧ KeptB d xs a.c.st s ∧ t.map = some m ∧ MapInv d xs sets m t.cached ∧
      r.map Die.Unit.offset = findRange m addr ∧ (∀ u, r = some u → openUnit d.info d.abbr u.offset = .ok u) ∧ (r = none → t.cached = true) ∧ (a.t.cached = true → t.cached = true) := by
  obtain ⟨m, l1, l2⟩ := load_any hsec hg
  have unit : ∀ {m' : ARanges} {cached : Bool}, MapInv d xs sets m' cached → ∀ {s : IState}, ISt d xs s → ∀ {uo}, findRange m' addr = some uo →
      ∃ u s', getUnit d uo s = .ok (u, s') ∧ u.offset = uo ∧ openUnit d.info d.abbr uo = .ok u ∧ Kept d xs s s' := by
    intro m' cached hm s hs uo hf
    rcases map_find hag hm addr with ⟨_, h⟩ | ⟨uo', lo, hi, q1, _, _, _, q2⟩
    · rw [h] at hf; cases hf
    · have : uo' = uo := by
        rcases q2 with ⟨_, q2⟩ | ⟨_, _, q2⟩ <;> rw [hf] at q2 <;> split at q2 <;> first | (injection q2 with q2; exact q2.symm) | cases q2
      subst this
      obtain ⟨x, hp⟩ := range_unit hag q1
      obtain ⟨u, s', k1, k2, k3, k4⟩ := unit_start hok hp hs
      obtain ⟨u', t, hop⟩ := opened hok hp
      have : u' = u := by have := hop.isOpen; rw [k2] at this; injection this with this; exact this.symm
      subst this
      exact ⟨u', s', k1, hop.off, k2, k3, k4⟩
  unfold lookupUnit
  rw [l1, Res.bind_ok]
  cases hf : findRange m addr with
  | some uo =>
    obtain ⟨u, s', k1, k2, k3, k4⟩ := unit l2 hg.good.st hf
    simp only
    rw [k1, Res.bind_ok]
    refine ⟨_, _, _, m, rfl, ⟨k4.toR, hg.ranges.of_eq k4.2.2⟩, rfl, l2, by rw [hf, ← k2]; rfl, ?_, (fun h => nomatch h), fun h => h⟩
    intro u' e; injection e with e; subst e; rw [k2]; exact k3
  | none =>
    obtain ⟨m', s1, g1, g2, g3⟩ := map_all hok hfit hrefs hroots hag hne (fuel := fuel) l2 (.inr h1) hg.good.st hg.ranges
    simp only
    rw [g1, Res.bind_ok]
    simp only
    cases hf' : findRange m' addr with
    | some uo =>
      obtain ⟨u, s', k1, k2, k3, k4⟩ := unit g2 g3.1.1 hf'
      simp only
      rw [k1, Res.bind_ok]
      refine ⟨_, _, _, m', rfl, ⟨g3.1.trans k4.toR, g3.2.of_eq k4.2.2⟩, rfl, g2, by rw [hf', ← k2]; rfl, ?_, (fun h => nomatch h), fun _ => rfl⟩
      intro u' e; injection e with e; subst e; rw [k2]; exact k3
    | none =>
      refine ⟨_, _, _, m', rfl, g3, rfl, g2, by rw [hf']; rfl, (fun _ h => nomatch h), fun _ => rfl, fun _ => rfl⟩

omit hok hfit hrefs in
/-- Without any depth of recursion allowed, a lookup has an end only if no attribute is looked at. -/
theorem lookup_depth {sec : Option (List Byte)} {fuel : Nat} {addr : BitVec 64} {t : Lookup} {s : IState} {r : Option Die.Unit × Lookup × IState}
    (h : lookupUnit d sec fuel addr t s = .ok r) : ∃ f, 1 ≤ f ∧ lookupUnit d sec f addr t s = .ok r := by
  cases fuel with
  | succ f => exact ⟨f + 1, by omega, h⟩
  | zero =>
    refine ⟨1, Nat.le_refl _, ?_⟩
    unfold lookupUnit at h ⊢
    obtain ⟨m, h1, h⟩ := Res.bind_eq_ok.1 h
    rw [h1, Res.bind_ok]
    cases hf : findRange m addr with
    | some uo => rw [hf] at h; exact h
    | none =>
      rw [hf] at h
      simp only at h ⊢
      obtain ⟨⟨m', s'⟩, h2, h⟩ := Res.bind_eq_ok.1 h
      have : addAll d 1 t.cached m s = .ok (m', s') := by
        unfold addAll at h2 ⊢
        split at h2
        · rename_i hc; rw [if_pos hc]; exact h2
        · exfalso
          obtain ⟨⟨u, s1⟩, _, h2⟩ := Res.bind_eq_ok.1 h2
          simp only [addUnits] at h2
          obtain ⟨⟨m1, s2⟩, h3, _⟩ := Res.bind_eq_ok.1 h2
          unfold addUnit at h3
          obtain ⟨⟨r, s3⟩, _, h3⟩ := Res.bind_eq_ok.1 h3
          cases r with
          | none => cases h3
          | some r =>
            simp only at h3
            obtain ⟨⟨_, _⟩, h4, _⟩ := Res.bind_eq_ok.1 h3
            rw [getAttr] at h4; cases h4
      rw [this, Res.bind_ok]
      exact h

theorem lookup_history {sec : Option (List Byte)} {sets : List ArangeSet} (hsec : ArangesOk sec sets) (hroots : RootsOk d xs) (hag : RangesAgree d xs sets) (hne : xs ≠ []) {a : LClient}
    (h : LHistory d xs sec a) : LGood d xs sets a := by
  induction h with
  | start => exact ⟨igood_history hok hrefs .start, ranges_history hok hfit hrefs .start, (fun _ h => nomatch h), fun _ => rfl⟩
  | step _ hd ih => exact ⟨igood_did hok hrefs ih.good hd, ranges_did hok hfit hrefs ih.good ih.ranges hd, ih.map, ih.fresh⟩
  | lookup _ h ih =>
    obtain ⟨f, hf, h⟩ := lookup_depth h
    obtain ⟨r, t, s, m, g1, g2, g3, g4, _⟩ := lookup_spec hok hfit hrefs hsec hroots hag hne ih _ hf
    rw [h] at g1; injection g1 with g1; injection g1 with e1 g1; injection g1 with e2 e3
    subst e1; subst e2; subst e3
    refine ⟨igood_ext ih.good g2.1, g2.2, ?_, ?_⟩
    · intro m' hm
      simp only at hm
      rw [g3] at hm; injection hm with hm; subst hm; exact g4
    · intro hm
      simp only at hm
      rw [g3] at hm; cases hm

end

end Pstack.Props
