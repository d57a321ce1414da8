import Verif.Proof.AttrValue
import Verif.Spec.Ranges
/-
The ranges of entries.
-/
namespace Pstack.Props
open Pstack.Reader Pstack.Spec Pstack.Dwarf Pstack.Die

/-! ### Lists -/

theorem ranges4_spec {sec : List Byte} (rs : List OldRange) : ∀ (base off : Nat) (rest : List Byte) (acc : List (Nat × Nat)) (fuel : Nat) (bw : BitVec 64),
    sec.drop off = encodeOldRanges rs ++ rest → OldRangesOk base rs → rs.length < fuel → bw.toNat = base →
    ranges4 sec fuel bw off acc = .ok (acc ++ oldRanges base rs) := by
  induction rs with
  | nil =>
    intro base off rest acc fuel bw hd hok hf hb
    obtain ⟨f, rfl⟩ : ∃ f, fuel = f + 1 := ⟨fuel - 1, by omega⟩
    have h0 : sec.drop off = leBytes 8 0 ++ (leBytes 8 0 ++ rest) := by rw [hd]; simp [encodeOldRanges]
    have r1 := reads_uint 8 0 (by decide) (by decide) _ _ h0
    have r2 := reads_uint 8 0 (by decide) (by decide) _ _ (drop_prefix h0)
    rw [ranges4, r1, Res.bind_ok]
    simp only
    rw [r2, Res.bind_ok]
    simp only
    rw [if_pos ⟨rfl, rfl⟩]
    simp [oldRanges]
  | cons a rs ih =>
    intro base off rest acc fuel bw hd hok hf hb
    obtain ⟨f, rfl⟩ : ∃ f, fuel = f + 1 := ⟨fuel - 1, by omega⟩
    rw [List.length_cons] at hf
    have hd' : sec.drop off = a.encode ++ (encodeOldRanges rs ++ rest) := by rw [hd]; simp [encodeOldRanges]
    cases a with
    | range a b =>
      obtain ⟨o1, o2, o3, o4, o5⟩ := hok
      simp only [OldRange.encode, List.append_assoc] at hd'
      have r1 := reads_uint 8 a (by decide) (by omega) _ _ hd'
      have h2 := drop_prefix hd'
      have r2 := reads_uint 8 b (by decide) (by omega) _ _ h2
      have h3 := drop_prefix h2
      rw [ranges4, r1, Res.bind_ok]
      simp only
      rw [r2, Res.bind_ok]
      simp only
      rw [if_neg, if_neg, ih base _ rest _ f bw h3 o5 (by omega) hb]
      · simp only [oldRanges, List.append_assoc, List.cons_append, List.nil_append, Res.ok.injEq, List.append_cancel_left_eq, List.cons.injEq, Prod.mk.injEq, and_true]
        constructor <;> rw [BitVec.toNat_add, hb, word64 _ (by omega)] <;> omega
      · intro e
        have := congrArg BitVec.toNat e
        rw [word64 _ (by omega)] at this
        simp at this; omega
      · rintro ⟨e1, e2⟩
        have e1 := congrArg BitVec.toNat e1
        have e2 := congrArg BitVec.toNat e2
        rw [word64 _ (by omega)] at e1 e2
        simp at e1 e2; omega
    | base a =>
      obtain ⟨o1, o2⟩ := hok
      simp only [OldRange.encode, List.append_assoc] at hd'
      have r1 := reads_uint 8 (2 ^ 64 - 1) (by decide) (by decide) _ _ hd'
      have h2 := drop_prefix hd'
      have r2 := reads_uint 8 a (by decide) (by omega) _ _ h2
      have h3 := drop_prefix h2
      rw [ranges4, r1, Res.bind_ok]
      simp only
      rw [r2, Res.bind_ok]
      simp only
      rw [if_neg (fun h => absurd h.1 (by decide)), if_pos (by decide), ih a _ rest _ f _ h3 o2 (by omega) (word64 _ o1)]
      rfl

/-! ### References change nothing of it -/

theorem setSt_ranges (s : IState) (o : Nat) (t : State) : (s.setSt o t).ranges = s.ranges := rfl

theorem inUnit_ranges {u : Die.Unit} {off : Nat} {s s' : IState} {e : Option DIE} (h : inUnit u off s = .ok (e, s')) : s'.ranges = s.ranges := by
  unfold inUnit at h
  obtain ⟨⟨_, _⟩, _, h⟩ := Res.bind_eq_ok.1 h
  injection h with h; injection h with _ h; subst h; rfl

theorem getUnit_ranges {d : Sections} {off : Nat} {s s' : IState} {u : Die.Unit} (h : getUnit d off s = .ok (u, s')) : s'.ranges = s.ranges := by
  unfold getUnit at h
  obtain ⟨_, _, h⟩ := Res.bind_eq_ok.1 h
  injection h with h; injection h with _ h; subst h; rfl

theorem nextUnit_ranges {d : Sections} {u : Die.Unit} {s s' : IState} {v : Option Die.Unit} (h : nextUnit d u s = .ok (v, s')) : s'.ranges = s.ranges := by
  unfold nextUnit at h
  split at h
  · injection h with h; injection h with _ h; subst h; rfl
  · obtain ⟨⟨_, s1⟩, h1, h⟩ := Res.bind_eq_ok.1 h
    injection h with h; injection h with _ h; subst h
    exact getUnit_ranges h1

theorem searchUnits_ranges {d : Sections} {off : Nat} : ∀ (fuel : Nat) (u : Die.Unit) (s s' : IState) (e : DIE), searchUnits d off fuel u s = .ok (e, s') → s'.ranges = s.ranges := by
  intro fuel
  induction fuel with
  | zero => intro u s s' e h; cases h
  | succ fuel ih =>
    intro u s s' e h
    rw [searchUnits] at h
    split at h
    · split at h
      · obtain ⟨⟨e', s1⟩, h1, h⟩ := Res.bind_eq_ok.1 h
        cases e' with
        | none => cases h
        | some e' =>
          injection h with h; injection h with _ h; subst h
          exact inUnit_ranges h1
      · cases h
    · obtain ⟨⟨v, s1⟩, h1, h⟩ := Res.bind_eq_ok.1 h
      cases v with
      | none => cases h
      | some v => exact (ih _ _ _ _ h).trans (nextUnit_ranges h1)

theorem infoOffsetToDIE_ranges {d : Sections} {off : Nat} {s s' : IState} {e : DIE} (h : infoOffsetToDIE d off s = .ok (e, s')) : s'.ranges = s.ranges := by
  unfold infoOffsetToDIE at h
  obtain ⟨⟨u, s1⟩, h1, h⟩ := Res.bind_eq_ok.1 h
  exact (searchUnits_ranges _ _ _ _ _ h).trans (getUnit_ranges h1)

theorem gotoDIE_ranges {d : Sections} {u : Die.Unit} {off : Nat} {s s' : IState} {e : Option DIE} (h : gotoDIE d u off s = .ok (e, s')) : s'.ranges = s.ranges := by
  have other : ∀ s1, s1.ranges = s.ranges → (do
      let (e, s) ← infoOffsetToDIE d off s1
      Res.ok (some e, s)) = Res.ok (e, s') → s'.ranges = s.ranges := by
    intro s1 h0 h
    obtain ⟨⟨_, _⟩, h1, h⟩ := Res.bind_eq_ok.1 h
    injection h with h; injection h with _ h; subst h
    exact (infoOffsetToDIE_ranges h1).trans h0
  unfold gotoDIE at h
  split at h
  · obtain ⟨⟨e', s1⟩, h1, h⟩ := Res.bind_eq_ok.1 h
    cases e' with
    | none => exact other s1 (inUnit_ranges h1) h
    | some e' =>
      injection h with h; injection h with _ h; subst h
      exact inUnit_ranges h1
  · exact other s rfl h

theorem toDIE_ranges {d : Sections} {a : Option Attr} {s s' : IState} {e : Option DIE} (h : toDIE d a s = .ok (e, s')) : s'.ranges = s.ranges := by
  cases a with
  | none => injection h with h; injection h with _ h; subst h; rfl
  | some a =>
    unfold toDIE at h
    simp only at h
    obtain ⟨f, _, h⟩ := Res.bind_eq_ok.1 h
    split at h <;> first
      | cases h
      | (obtain ⟨_, _, h⟩ := Res.bind_eq_ok.1 h
         exact gotoDIE_ranges h)

section
variable {d : Sections} {xs : List DieUnit} (hok : InfoOk d xs) (hfit : SectionsFit d)
include hok hfit

theorem ranges5_spec {uo : Nat} {x : DieUnit} (hp : (uo, x) ∈ placeUnits 0 xs) {u : Die.Unit} (hu : openUnit d.info d.abbr uo = .ok u) {fuel : Nat} (h1 : 1 ≤ fuel)
    {base : Nat} {rs : List Rle} {l : List (Nat × Nat)} (h : RleRanges d x base rs l) :
    ∀ (off : Nat) (rest : List Byte) (acc : List (Nat × Nat)) (rounds : Nat) (bw : BitVec 64) (s : IState),
    d.rnglists.drop off = encodeRles x.addrSize rs ++ rest → rs.length < rounds → bw.toNat = base → ISt d xs s →
    ∃ s', ranges5 d fuel u rounds bw off acc s = .ok (acc ++ l, s') ∧ Kept d xs s s' := by
  have hw : d.rnglists.length < W64 := by rw [W64_eq]; exact hfit.rnglists
  obtain ⟨u', t, hop⟩ := opened hok hp
  have : u' = u := by have := hop.isOpen; rw [hu] at this; injection this with this; exact this.symm
  subst this
  have hal : u'.addrlen = x.addrSize := hop.sizes.addr
  have ha8 : x.addrSize ≤ 8 := hop.sizes.addr8
  have hap := pow256_le x.addrSize ha8
  have start : ∀ {a : Rle} {rs : List Rle} {off : Nat} {rest : List Byte}, d.rnglists.drop off = encodeRles x.addrSize (a :: rs) ++ rest →
      d.rnglists.drop off = a.encode x.addrSize ++ (encodeRles x.addrSize rs ++ rest) := by
    intro a rs off rest hd
    rw [hd]; simp [encodeRles]
  induction h with
  | @done base =>
    intro off rest acc rounds bw s hd hf hb hs
    obtain ⟨f, rfl⟩ : ∃ f, rounds = f + 1 := ⟨rounds - 1, by omega⟩
    refine ⟨s, ?_, Kept.refl hs⟩
    rw [ranges5, getu8_prefix d.rnglists rest 0#8 off (by rw [hd]; rfl), Res.bind_ok]
    simp
  | @baseIndex base i a rs r hi ha h ih =>
    intro off rest acc rounds bw s hd hf hb hs
    obtain ⟨f, rfl⟩ : ∃ f, rounds = f + 1 := ⟨rounds - 1, by omega⟩
    rw [List.length_cons] at hf
    have hd' := start hd
    simp only [Rle.encode, List.cons_append] at hd'
    have r0 := getu8_prefix d.rnglists _ _ off hd'
    have h2 : d.rnglists.drop (off + 1) = encodeU i ++ (encodeRles x.addrSize rs ++ rest) := drop_prefix (bs := [1#8]) hd'
    have r1 := reads_uleb hw i hi _ _ h2
    have h3 := drop_prefix h2
    obtain ⟨s1, g1, g2, g3⟩ := addrx_spec hok hfit hs hp hu ha h1 (word64 _ hi)
    obtain ⟨s', k1, k2⟩ := ih _ rest acc f _ s1 h3 (by omega) (word64 _ g3) g2.1
    refine ⟨s', ?_, g2.trans k2⟩
    rw [ranges5, r0, Res.bind_ok]
    simp only [show (1#8).toNat = 1 from rfl]
    rw [r1, Res.bind_ok]
    simp only
    rw [g1, Res.bind_ok]
    exact k1
  | @indexLength base i n a rs r hi ha hn hov h ih =>
    intro off rest acc rounds bw s hd hf hb hs
    obtain ⟨f, rfl⟩ : ∃ f, rounds = f + 1 := ⟨rounds - 1, by omega⟩
    rw [List.length_cons] at hf
    have hd' := start hd
    simp only [Rle.encode, List.cons_append, List.append_assoc] at hd'
    have r0 := getu8_prefix d.rnglists _ _ off hd'
    have h2 : d.rnglists.drop (off + 1) = encodeU i ++ (encodeU n ++ (encodeRles x.addrSize rs ++ rest)) := drop_prefix (bs := [3#8]) hd'
    have r1 := reads_uleb hw i hi _ _ h2
    have h3 := drop_prefix h2
    have r2 := reads_uleb hw n hn _ _ h3
    have h4 := drop_prefix h3
    obtain ⟨s1, g1, g2, g3⟩ := addrx_spec hok hfit hs hp hu ha h1 (word64 _ hi)
    obtain ⟨s', k1, k2⟩ := ih _ rest (acc ++ [(a, a + n)]) f bw s1 h4 (by omega) hb g2.1
    refine ⟨s', ?_, g2.trans k2⟩
    rw [ranges5, r0, Res.bind_ok]
    simp only [show (3#8).toNat = 3 from rfl]
    rw [r1, Res.bind_ok]
    simp only
    rw [g1, Res.bind_ok]
    simp only
    rw [r2, Res.bind_ok]
    simp only
    rw [BitVec.toNat_add, word64 _ g3, word64 _ hn, Nat.mod_eq_of_lt hov, k1]
    simp
  | @pair base a b rs r ha hb' h ih =>
    intro off rest acc rounds bw s hd hf hb hs
    obtain ⟨f, rfl⟩ : ∃ f, rounds = f + 1 := ⟨rounds - 1, by omega⟩
    rw [List.length_cons] at hf
    have hd' := start hd
    simp only [Rle.encode, List.cons_append, List.append_assoc] at hd'
    have r0 := getu8_prefix d.rnglists _ _ off hd'
    have h2 : d.rnglists.drop (off + 1) = encodeU a ++ (encodeU b ++ (encodeRles x.addrSize rs ++ rest)) := drop_prefix (bs := [4#8]) hd'
    have r1 := reads_uleb hw a (by omega) _ _ h2
    have h3 := drop_prefix h2
    have r2 := reads_uleb hw b (by omega) _ _ h3
    have h4 := drop_prefix h3
    obtain ⟨s', k1, k2⟩ := ih _ rest (acc ++ [(a + base, b + base)]) f bw s h4 (by omega) hb hs
    refine ⟨s', ?_, k2⟩
    rw [ranges5, r0, Res.bind_ok]
    simp only [show (4#8).toNat = 4 from rfl]
    rw [r1, Res.bind_ok]
    simp only
    rw [r2, Res.bind_ok]
    simp only
    rw [BitVec.toNat_add, BitVec.toNat_add, word64 _ (by omega), word64 _ (by omega), hb, Nat.mod_eq_of_lt ha, Nat.mod_eq_of_lt hb', k1]
    simp
  | @base base a rs r ha h ih =>
    intro off rest acc rounds bw s hd hf hb hs
    obtain ⟨f, rfl⟩ : ∃ f, rounds = f + 1 := ⟨rounds - 1, by omega⟩
    rw [List.length_cons] at hf
    have hd' := start hd
    simp only [Rle.encode, List.cons_append, List.append_assoc] at hd'
    have r0 := getu8_prefix d.rnglists _ _ off hd'
    have h2 : d.rnglists.drop (off + 1) = leBytes x.addrSize a ++ (encodeRles x.addrSize rs ++ rest) := drop_prefix (bs := [5#8]) hd'
    have r1 := reads_uint x.addrSize a (by omega) ha _ _ h2
    have h3 := drop_prefix h2
    obtain ⟨s', k1, k2⟩ := ih _ rest acc f _ s h3 (by omega) (word64 _ (by omega)) hs
    refine ⟨s', ?_, k2⟩
    rw [ranges5, r0, Res.bind_ok]
    simp only [show (5#8).toNat = 5 from rfl]
    rw [hal, r1, Res.bind_ok]
    exact k1
  | @startEnd base a b rs r ha hb' h ih =>
    intro off rest acc rounds bw s hd hf hb hs
    obtain ⟨f, rfl⟩ : ∃ f, rounds = f + 1 := ⟨rounds - 1, by omega⟩
    rw [List.length_cons] at hf
    have hd' := start hd
    simp only [Rle.encode, List.cons_append, List.append_assoc] at hd'
    have r0 := getu8_prefix d.rnglists _ _ off hd'
    have h2 : d.rnglists.drop (off + 1) = leBytes x.addrSize a ++ (leBytes x.addrSize b ++ (encodeRles x.addrSize rs ++ rest)) := drop_prefix (bs := [6#8]) hd'
    have r1 := reads_uint x.addrSize a (by omega) ha _ _ h2
    have h3 := drop_prefix h2
    have r2 := reads_uint x.addrSize b (by omega) hb' _ _ h3
    have h4 := drop_prefix h3
    obtain ⟨s', k1, k2⟩ := ih _ rest (acc ++ [(a, b)]) f bw s h4 (by omega) hb hs
    refine ⟨s', ?_, k2⟩
    rw [ranges5, r0, Res.bind_ok]
    simp only [show (6#8).toNat = 6 from rfl]
    rw [hal, r1, Res.bind_ok]
    simp only
    rw [r2, Res.bind_ok]
    simp only
    rw [word64 _ (by omega), word64 _ (by omega), k1]
    simp
  | @startLength base a n rs r ha hov h ih =>
    intro off rest acc rounds bw s hd hf hb hs
    obtain ⟨f, rfl⟩ : ∃ f, rounds = f + 1 := ⟨rounds - 1, by omega⟩
    rw [List.length_cons] at hf
    have hd' := start hd
    simp only [Rle.encode, List.cons_append, List.append_assoc] at hd'
    have r0 := getu8_prefix d.rnglists _ _ off hd'
    have h2 : d.rnglists.drop (off + 1) = leBytes x.addrSize a ++ (encodeU n ++ (encodeRles x.addrSize rs ++ rest)) := drop_prefix (bs := [7#8]) hd'
    have r1 := reads_uint x.addrSize a (by omega) ha _ _ h2
    have h3 := drop_prefix h2
    have r2 := reads_uleb hw n (by omega) _ _ h3
    have h4 := drop_prefix h3
    obtain ⟨s', k1, k2⟩ := ih _ rest (acc ++ [(a, a + n)]) f bw s h4 (by omega) hb hs
    refine ⟨s', ?_, k2⟩
    rw [ranges5, r0, Res.bind_ok]
    simp only [show (7#8).toNat = 7 from rfl]
    rw [hal, r1, Res.bind_ok]
    simp only
    rw [r2, Res.bind_ok]
    simp only
    rw [BitVec.toNat_add, word64 _ (by omega), word64 _ (by omega), Nat.mod_eq_of_lt hov, k1]
    simp

/-! ### Entries -/

omit hfit in
/-- An attribute of the entry itself. -/
theorem getAttr_own {s : IState} (hs : ISt d xs s) {y : DIE} {uo : Nat} {x : DieUnit} {o : Nat} {e : DieEntry} (hg : GoodDie d xs s y uo x o e) {name i : Nat}
    (hf : e.find name = some i) {fuel : Nat} (h1 : 1 ≤ fuel) (isLocal : Bool) : getAttr d fuel y name isLocal s = .ok (some ⟨y, i⟩, s) := by
  obtain ⟨f, rfl⟩ : ∃ f, fuel = f + 1 := ⟨fuel - 1, by omega⟩
  rw [getAttr, own_spec hok hs hg, Res.bind_ok, hf]
  rfl

omit hfit in
theorem getAttr_local {s : IState} (hs : ISt d xs s) {y : DIE} {uo : Nat} {x : DieUnit} {o : Nat} {e : DieEntry} (hg : GoodDie d xs s y uo x o e) (name : Nat)
    {fuel : Nat} (h1 : 1 ≤ fuel) : getAttr d fuel y name true s = .ok ((e.find name).map (⟨y, ·⟩), s) := by
  cases hf : e.find name with
  | some i => exact getAttr_own hok hs hg hf h1 true
  | none =>
    obtain ⟨f, rfl⟩ : ∃ f, fuel = f + 1 := ⟨fuel - 1, by omega⟩
    rw [getAttr, own_spec hok hs hg, Res.bind_ok, hf]
    rfl

/-- The base address. -/
theorem rangesBase_spec {s : IState} (hs : ISt d xs s) {uo : Nat} {x : DieUnit} (hp : (uo, x) ∈ placeUnits 0 xs) {u : Die.Unit} (hu : openUnit d.info d.abbr uo = .ok u)
    {base : Nat} (hba : BaseAddress d x base) {bw : BitVec 64} (hb : bw = 0 ∨ bw.toNat = base) {fuel : Nat} (h1 : 1 ≤ fuel) :
    ∃ w s', rangesBase d fuel u bw s = .ok (w, s') ∧ w.toNat = base ∧ Kept d xs s s' := by
  unfold rangesBase
  by_cases h0 : bw = 0
  · rw [if_pos h0]
    rcases hba with ⟨i, f1, ⟨a, v, f2, f3, f4⟩, f5⟩ | ⟨hn, h⟩
    · obtain ⟨y, s1, g1, g2, g3⟩ := rootAttr_some hok hs hp hu f1 h1
      obtain ⟨w, s', k1, k2, k3, _⟩ := toNum_spec hok hfit g2.1 g3 f2 f3 f4 h1
      refine ⟨w, s', ?_, k2, g2.trans k3⟩
      rw [g1, Res.bind_ok]
      exact k1
    · obtain ⟨s1, g1, g2⟩ := rootAttr_no hok hs hp hu hn h1
      refine ⟨0, s1, ?_, by rw [h]; rfl, g2⟩
      rw [g1, Res.bind_ok]
      rfl
  · rw [if_neg h0]
    exact ⟨bw, s, rfl, hb.resolve_left h0, Kept.refl hs⟩

omit hok hfit in
theorem oldRanges_size (rs : List OldRange) : rs.length < (encodeOldRanges rs).length := by
  unfold encodeOldRanges
  induction rs with
  | nil => simp [leBytes_length]
  | cons a rs ih =>
    have : 16 ≤ a.encode.length := by cases a <;> simp [OldRange.encode, leBytes_length]
    simp only [List.map_cons, List.flatten_cons, List.length_append, List.length_cons] at ih ⊢
    omega

omit hok hfit in
theorem rles_size (w : Nat) (rs : List Rle) : rs.length < (encodeRles w rs).length := by
  unfold encodeRles
  induction rs with
  | nil => simp
  | cons a rs ih =>
    have : 1 ≤ (a.encode w).length := by cases a <;> simp [Rle.encode]
    simp only [List.map_cons, List.flatten_cons, List.length_append, List.length_cons] at ih ⊢
    omega

omit hok hfit in
theorem list_rounds {sec e rest : List Byte} {n k : Nat} (h : sec.drop n = e ++ rest) (hk : k < e.length) : k < sec.length + 1 := by
  have := congrArg List.length h
  rw [List.length_drop, List.length_append] at this
  omega

/-- The ranges of an entry, read from the section. -/
theorem readRanges_spec {s : IState} (hs : ISt d xs s) {y : DIE} {uo : Nat} {x : DieUnit} {o : Nat} {e : DieEntry} (hg : GoodDie d xs s y uo x o e) {i n base : Nat} {l : List (Nat × Nat)}
    (hf : e.find 0x55 = some i) (hn : AttrNumber d x e i n) (hr : RangesAt d x base n l) {bw : BitVec 64} (hb : bw.toNat = base) {fuel : Nat} (h1 : 1 ≤ fuel) :
    ∃ s', readRanges d fuel y bw s = .ok (l, s') ∧ Kept d xs s s' := by
  obtain ⟨a, v, f2, f3, f4⟩ := hn
  obtain ⟨w, s1, k1, k2, k3, _⟩ := toNum_spec hok hfit hs hg f2 f3 f4 h1
  obtain ⟨u', t, hop⟩ := opened hok hg.entry.1
  have hu : u' = y.unit := by have := hop.isOpen; rw [hg.isOpen] at this; injection this with this; exact this.symm
  subst hu
  have hv : y.unit.version = x.version := hop.sizes.version
  unfold readRanges
  rw [getAttr_own hok hs hg hf h1 false, Res.bind_ok]
  simp only
  rw [k1, Res.bind_ok]
  simp only
  rcases hr with ⟨hv', rs, rest, r1, r2, r3⟩ | ⟨hv', rs, rest, r1, r2⟩
  · rw [if_pos (by omega)]
    have := ranges4_spec rs base n rest [] (d.ranges.length + 1) bw r1 r2 (list_rounds r1 (oldRanges_size rs)) hb
    rw [k2, this, Res.bind_ok]
    exact ⟨s1, by rw [r3]; rfl, k3⟩
  · rw [if_neg (by omega)]
    obtain ⟨s', g1, g2⟩ := ranges5_spec hok hfit hg.entry.1 hg.isOpen h1 r2 n rest [] (d.rnglists.length + 1) bw s1 r1 (list_rounds r1 (rles_size _ rs)) hb k3.1
    rw [k2, g1]
    exact ⟨s', by simp, k3.trans g2⟩

/-! ### What is remembered of ranges -/

/-- What is remembered of the ranges of an entry is right. -/
def RangesRight (d : Sections) (xs : List DieUnit) (s : IState) : Prop :=
  ∀ uo x o e L l, EntryIn xs uo x o e → EntryRanges d xs uo x o e L → s.ranges uo o = some l → l = L

omit hok hfit in
theorem RangesRight.of_eq {s s' : IState} (h : RangesRight d xs s) (he : s'.ranges = s.ranges) : RangesRight d xs s' := by
  intro uo x o e L l h1 h2 h3
  rw [he] at h3
  exact h uo x o e L l h1 h2 h3

/-- The base address the caller has is that of the unit, or not known. -/
def BaseArg (d : Sections) (xs : List DieUnit) (uo : Nat) (x : DieUnit) (o : Nat) (e : DieEntry) (bw : BitVec 64) : Prop :=
  (∃ L, EntryRanges d xs uo x o e L) → ∀ base, BaseAddress d x base → bw = 0 ∨ bw.toNat = base

theorem unitRanges_spec {s : IState} (hs : ISt d xs s) (hr : RangesRight d xs s) {y : DIE} {uo : Nat} {x : DieUnit} {o : Nat} {e : DieEntry} (hg : GoodDie d xs s y uo x o e)
    {L : List (Nat × Nat)} (hL : EntryRanges d xs uo x o e L) {bw : BitVec 64} (hb : BaseArg d xs uo x o e bw) {fuel : Nat} (h1 : 1 ≤ fuel) :
    ∃ s', unitRanges d fuel y bw s = .ok (L, s') := by
  have hL' := hL
  obtain ⟨i, n, base, f1, f2, _, f3, f4, _⟩ := hL
  obtain ⟨w, s1, g1, g2, g3⟩ := rangesBase_spec hok hfit hs hg.entry.1 hg.isOpen f3 (hb ⟨L, hL'⟩ base f3) h1
  unfold unitRanges
  rw [g1, Res.bind_ok]
  simp only
  have ho : y.h.off = o := by rw [hg.handle]
  rw [g3.2.2, hg.off, ho]
  cases hc : s.ranges uo o with
  | some l => exact ⟨s1, by rw [hr uo x o e L l hg.entry hL' hc]⟩
  | none =>
    obtain ⟨s', k1, k2⟩ := readRanges_spec hok hfit g3.1 (hg.ext g3.2) f1 f2 f4 g2 h1
    simp only
    rw [k1, Res.bind_ok]
    exact ⟨_, rfl⟩

section
variable (hrefs : RefsOk xs)
include hrefs

theorem unitRanges_right {s s' : IState} (hs : ISt d xs s) (hr : RangesRight d xs s) {y : DIE} {uo : Nat} {x : DieUnit} {o : Nat} {e : DieEntry} (hg : GoodDie d xs s y uo x o e)
    {bw : BitVec 64} (hb : BaseArg d xs uo x o e bw) {fuel : Nat} (h1 : 1 ≤ fuel) {l : List (Nat × Nat)} (h : unitRanges d fuel y bw s = .ok (l, s')) : RangesRight d xs s' := by
  have hsame : ∀ L, EntryRanges d xs uo x o e L → l = L := by
    intro L hL
    obtain ⟨s2, g⟩ := unitRanges_spec hok hfit hs hr hg hL hb h1
    rw [h] at g; injection g with g; injection g
  unfold unitRanges at h
  obtain ⟨⟨b, s1⟩, h2, h⟩ := Res.bind_eq_ok.1 h
  have k1 := rangesBase_keep hok hrefs hs ⟨uo, x, hg.entry.1, hg.isOpen⟩ h2
  simp only at h
  split at h
  · injection h with h; injection h with _ h; subst h; exact hr.of_eq k1.2.2
  · obtain ⟨⟨l', s2⟩, h3, h⟩ := Res.bind_eq_ok.1 h
    have k2 := readRanges_keep hok hrefs k1.1 ⟨uo, x, o, e, hg.ext k1.2⟩ h3
    injection h with h; injection h with h0 h; subst h; subst h0
    have hr2 : RangesRight d xs s2 := hr.of_eq (k2.2.2.trans k1.2.2)
    have ho : y.h.off = o := by rw [hg.handle]
    intro uo2 x2 o2 e2 L2 l2 e1 e2' e3
    simp only [IState.setRanges] at e3
    by_cases hk : uo2 = y.unit.offset ∧ o2 = y.h.off
    · rw [if_pos hk] at e3
      injection e3 with e3; subst e3
      obtain ⟨k3, k4⟩ := hk
      rw [hg.off] at k3; rw [ho] at k4
      subst k3; subst k4
      have hx : (uo2, x2) = (uo2, x) := units_inj e1.1 hg.entry.1 (o := uo2) ⟨Nat.le_refl _, by have := unit_ne x2; simp only; omega⟩ ⟨Nat.le_refl _, by have := unit_ne x; simp only; omega⟩
      injection hx with _ hx
      subst hx
      have he : e2 = e := placed_inj e1.2 hg.entry.2
      subst he
      exact hsame L2 e2'
    · rw [if_neg hk] at e3
      exact hr2 uo2 x2 o2 e2 L2 l2 e1 e2' e3

omit hok hfit hrefs in
theorem inherits_none {name uo o : Nat} {e : DieEntry} (h : Inherits xs name uo o e none) : e.find name = none := by
  cases h <;> assumption

omit hok hfit hrefs in
/-- A deeper recursion changes nothing. -/
theorem getAttr_mono (name : Nat) : ∀ (fuel : Nat) (y : DIE) (isLocal : Bool) (s : IState) (r : Option Attr × IState),
    getAttr d fuel y name isLocal s = .ok r → ∀ k, getAttr d (fuel + k) y name isLocal s = .ok r := by
  intro fuel
  induction fuel with
  | zero => intro y isLocal s r h; cases h
  | succ fuel ih =>
    intro y isLocal s r h k
    rw [Nat.add_right_comm, getAttr]
    rw [getAttr] at h
    obtain ⟨own, h1, h⟩ := Res.bind_eq_ok.1 h
    rw [h1, Res.bind_ok]
    cases own with
    | some a => exact h
    | none =>
      simp only at h ⊢
      split at h
      · rename_i hc; rw [if_pos hc]; exact h
      · rename_i hc
        rw [if_neg hc]
        obtain ⟨or, h2, h⟩ := Res.bind_eq_ok.1 h
        rw [h2, Res.bind_ok]
        obtain ⟨⟨ao, s1⟩, h3, h⟩ := Res.bind_eq_ok.1 h
        rw [h3, Res.bind_ok]
        simp only at h ⊢
        split at h
        · exact ih _ _ _ _ h k
        · obtain ⟨or, h2, h⟩ := Res.bind_eq_ok.1 h
          rw [h2, Res.bind_ok]
          obtain ⟨⟨ao, s1⟩, h3, h⟩ := Res.bind_eq_ok.1 h
          rw [h3, Res.bind_ok]
          simp only at h ⊢
          split at h
          · exact ih _ _ _ _ h k
          · exact h

omit hfit hrefs in
/-- An attribute that is nowhere is not found. -/
theorem getAttr_nowhere {name : Nat} (hn : name ≠ 0x3c ∧ name ≠ 0x31 ∧ name ≠ 0x47) {s s' : IState} (hs : ISt d xs s) {y : DIE} {uo : Nat} {x : DieUnit} {o : Nat} {e : DieEntry}
    (hg : GoodDie d xs s y uo x o e) (hi : Inherits xs name uo o e none) {fuel : Nat} {a : Option Attr} (h : getAttr d fuel y name false s = .ok (a, s')) : a = none := by
  obtain ⟨n, h2⟩ := getAttr_inherits hok hn hi
  obtain ⟨a2, s2, g1, _, _, g2⟩ := h2 (fuel + n) y x s (by omega) hs hg
  rw [getAttr_mono name fuel y false s _ h n] at g1
  injection g1 with g1; injection g1 with g1 _
  rw [g1]; exact g2

omit hrefs in
/-- The base address `containsAddress` and `getRanges` have: the number of an attribute of the root, or none. -/
theorem base_arg {s s' : IState} (hs : ISt d xs s) {y : DIE} {uo : Nat} {x : DieUnit} {o : Nat} {e : DieEntry} (hg : GoodDie d xs s y uo x o e) {low : Option Attr}
    (hl : (∃ L, EntryRanges d xs uo x o e L) → low = (e.find 0x11).map (⟨y, ·⟩)) {fuel : Nat} (h1 : 1 ≤ fuel) {bw : BitVec 64} (h : numOr0 d fuel low s = .ok (bw, s')) :
    BaseArg d xs uo x o e bw := by
  intro hL base hba
  have hl := hl hL
  obtain ⟨L, i, n, b', _, _, _, _, _, hcase⟩ := hL
  cases hf : e.find 0x11 with
  | none =>
    rw [hf] at hl; subst hl
    injection h with h; injection h with h _
    exact .inl h.symm
  | some j =>
    rw [hf] at hl; subst hl
    rcases hcase with ⟨_, he⟩ | hi
    · subst he
      right
      rcases hba with ⟨k, f1, ⟨a, v, f2, f3, f4⟩, _⟩ | ⟨hn, _⟩
      · rw [hf] at f1; injection f1 with f1; subst f1
        obtain ⟨w, s2, k1, k2, _⟩ := toNum_spec hok hfit hs hg f2 f3 f4 h1
        simp only [Option.map_some, numOr0] at h
        rw [h] at k1; injection k1 with k1; injection k1 with k1 _
        rw [k1]; exact k2
      · rw [hn.1] at hf; cases hf
    · rw [inherits_none hi] at hf; cases hf

/-- The low address `getRanges` looks for. -/
theorem low_inherited {s s' : IState} (hs : ISt d xs s) {y : DIE} {uo : Nat} {x : DieUnit} {o : Nat} {e : DieEntry} (hg : GoodDie d xs s y uo x o e) {fuel : Nat} (h1 : 1 ≤ fuel)
    {low : Option Attr} (h : getAttr d fuel y 0x11 false s = .ok (low, s')) : (∃ L, EntryRanges d xs uo x o e L) → low = (e.find 0x11).map (⟨y, ·⟩) := by
  rintro ⟨L, i, n, base, _, _, _, hba, _, hcase⟩
  cases hf : e.find 0x11 with
  | some j =>
    rw [getAttr_own hok hs hg hf h1] at h
    injection h with h; injection h with h _
    rw [← h]; rfl
  | none =>
    have hn : Inherits xs 0x11 uo o e none := by
      rcases hcase with ⟨_, he⟩ | hi
      · subst he
        rcases hba with ⟨k, f1, _⟩ | ⟨hn, _⟩
        · rw [hf] at f1; cases f1
        · exact .nowhere hn.1 hn.2.1 hn.2.2
      · exact hi
    exact getAttr_nowhere hok (by decide) hs hg hn h

theorem containsRanges_right {s s' : IState} (hs : ISt d xs s) (hr : RangesRight d xs s) {y : DIE} {uo : Nat} {x : DieUnit} {o : Nat} {e : DieEntry} (hg : GoodDie d xs s y uo x o e)
    {low : Option Attr} (hl : low = (e.find 0x11).map (⟨y, ·⟩)) {fuel : Nat} (h1 : 1 ≤ fuel) {addr : BitVec 64} {r : Contains}
    (h : containsRanges d fuel y low addr s = .ok (r, s')) : RangesRight d xs s' := by
  have hlow : GoodOpt d xs s low := by
    intro a ha
    rw [hl] at ha
    cases hf : e.find 0x11 with
    | none => rw [hf] at ha; cases ha
    | some i => rw [hf] at ha; injection ha with ha; subst ha; exact ⟨uo, x, o, e, hg⟩
  unfold containsRanges at h
  obtain ⟨⟨r, s1⟩, h2, h⟩ := Res.bind_eq_ok.1 h
  obtain ⟨k1, _⟩ := getAttr_keep hok hrefs hs ⟨uo, x, o, e, hg⟩ h2
  cases r with
  | none => injection h with h; injection h with _ h; subst h; exact hr.of_eq k1.2.2
  | some a =>
    simp only at h
    obtain ⟨⟨b, s3⟩, h3, h⟩ := Res.bind_eq_ok.1 h
    obtain ⟨⟨l', s4⟩, h4, h⟩ := Res.bind_eq_ok.1 h
    injection h with h; injection h with _ h; subst h
    have k3 := numOr0_keep hok hrefs k1.1 (hlow.ext k1.2) h3
    exact unitRanges_right hok hfit hrefs k3.1 ((hr.of_eq k1.2.2).of_eq k3.2.2) ((hg.ext k1.2).ext k3.2) (base_arg hok hfit k1.1 (hg.ext k1.2) (fun _ => hl) h1 h3) h1 h4

theorem containsAddress_right {s s' : IState} (hs : ISt d xs s) (hr : RangesRight d xs s) {y : DIE} {uo : Nat} {x : DieUnit} {o : Nat} {e : DieEntry} (hg : GoodDie d xs s y uo x o e)
    {fuel : Nat} {addr : BitVec 64} {r : Contains} (h : containsAddress d fuel y addr s = .ok (r, s')) : RangesRight d xs s' := by
  have h1 : 1 ≤ fuel := by
    cases fuel with
    | zero => cases h
    | succ f => omega
  unfold containsAddress at h
  rw [getAttr_local hok hs hg 0x11 h1, Res.bind_ok] at h
  simp only at h
  rw [getAttr_local hok hs hg 0x12 h1, Res.bind_ok] at h
  simp only at h
  cases hf : e.find 0x11 with
  | none =>
    rw [hf] at h
    exact containsRanges_right hok hfit hrefs hs hr hg (by rw [hf]) h1 h
  | some i =>
    cases hf2 : e.find 0x12 with
    | none =>
      rw [hf, hf2] at h
      exact containsRanges_right hok hfit hrefs hs hr hg (by rw [hf]; rfl) h1 h
    | some j =>
      rw [hf, hf2] at h
      have := containsLowHigh_keep hok hrefs hs (low := ⟨y, i⟩) (high := ⟨y, j⟩) ⟨uo, x, o, e, hg⟩ ⟨uo, x, o, e, hg⟩ h
      exact hr.of_eq this.2.2

theorem dieRanges_right {s s' : IState} (hs : ISt d xs s) (hr : RangesRight d xs s) {y : DIE} {uo : Nat} {x : DieUnit} {o : Nat} {e : DieEntry} (hg : GoodDie d xs s y uo x o e)
    {fuel : Nat} {l : Option (List (Nat × Nat))} (h : dieRanges d fuel y s = .ok (l, s')) : RangesRight d xs s' := by
  have h1 : 1 ≤ fuel := by
    cases fuel with
    | zero => cases h
    | succ f => omega
  unfold dieRanges at h
  obtain ⟨⟨r, s1⟩, h2, h⟩ := Res.bind_eq_ok.1 h
  obtain ⟨k1, _⟩ := getAttr_keep hok hrefs hs ⟨uo, x, o, e, hg⟩ h2
  cases r with
  | none => injection h with h; injection h with _ h; subst h; exact hr.of_eq k1.2.2
  | some a =>
    simp only at h
    obtain ⟨⟨low, s2⟩, h3, h⟩ := Res.bind_eq_ok.1 h
    obtain ⟨⟨b, s3⟩, h4, h⟩ := Res.bind_eq_ok.1 h
    obtain ⟨⟨l', s4⟩, h5, h⟩ := Res.bind_eq_ok.1 h
    injection h with h; injection h with _ h; subst h
    have hg1 := hg.ext k1.2
    obtain ⟨k2, k2'⟩ := getAttr_keep hok hrefs k1.1 ⟨uo, x, o, e, hg1⟩ h3
    have k3 := numOr0_keep hok hrefs k2.1 k2' h4
    exact unitRanges_right hok hfit hrefs k3.1 (((hr.of_eq k1.2.2).of_eq k2.2.2).of_eq k3.2.2) ((hg1.ext k2.2).ext k3.2)
      (base_arg hok hfit k2.1 (hg1.ext k2.2) (low_inherited hok hfit hrefs k1.1 hg1 h1 h3) h1 h4) h1 h5

theorem findEntry_right {s s' : IState} (hs : ISt d xs s) (hr : RangesRight d xs s) {y : DIE} (hg : Good1 d xs s y) {fuel t depth : Nat} {addr : BitVec 64} {skip : Bool} {r : Option DIE}
    (h : findEntry d fuel addr t depth y skip s = .ok (r, s')) : RangesRight d xs s' := by
  obtain ⟨uo, x, o, e, hg⟩ := hg
  obtain ⟨u, T, hop⟩ := opened hok hg.entry.1
  have hu : u = y.unit := by have := hop.isOpen; rw [hg.isOpen] at this; injection this with this; exact this.symm
  subst hu
  exact ((findEntry_keepQ hok hrefs (RangesRight d xs) (fun _ _ _ _ _ _ _ _ h1 h2 h3 h4 => containsAddress_right hok hfit hrefs h1 h2 h3 h4) (fun _ _ h1 h2 => h2.of_eq h1) depth).1
    y skip s r s' o e hs hr hg hop h).2.1

theorem ranges_did {a b : IClient} (hg : IGood d xs a) (ih : RangesRight d xs a.st) (hd : IDid d xs a b) : RangesRight d xs b.st := by
  cases hd with
  | unit hx hu =>
    unfold getUnit at hu
    obtain ⟨_, _, hu⟩ := Res.bind_eq_ok.1 hu
    injection hu with hu; injection hu with _ hu; subst hu
    exact ih
  | within => exact ih
  | attr hh h => exact ih.of_eq (getAttr_keep hok hrefs hg.st (holds_good hok hg hh) h).1.2.2
  | noAttr hh h => exact ih.of_eq (getAttr_keep hok hrefs hg.st (holds_good hok hg hh) h).1.2.2
  | follow hh hn hne h => exact ih.of_eq (toDIE_ranges h)
  | find he h =>
    obtain ⟨z, s', g, _, g2, _⟩ := info_goto hok hg.st he
    rw [h] at g; injection g with g; injection g with _ g
    subst g
    exact ih.of_eq g2.2
  | number hh h => exact ih.of_eq (toNum_keep hok hrefs hg.st (by intro a' e; injection e with e; subst e; exact holds_good hok hg hh) h).2.2
  | string hh h => exact ih.of_eq (toStr_keep hok hrefs hg.st (by intro a' e; injection e with e; subst e; exact holds_good hok hg hh) h).2.2
  | contains hh h =>
    obtain ⟨uo, x, o, e, hy⟩ := holds_good hok hg hh
    exact containsAddress_right hok hfit hrefs hg.st ih hy h
  | ranges hh h =>
    obtain ⟨uo, x, o, e, hy⟩ := holds_good hok hg hh
    exact dieRanges_right hok hfit hrefs hg.st ih hy h
  | entry hh h => exact findEntry_right hok hfit hrefs hg.st ih (holds_good hok hg hh) h
  | noEntry hh h => exact findEntry_right hok hfit hrefs hg.st ih (holds_good hok hg hh) h
  | @purge uo =>
    intro uo2 x o e L l h1 h2 h3
    simp only [IState.dropRanges, IState.setSt] at h3
    split at h3
    · cases h3
    · exact ih uo2 x o e L l h1 h2 h3

/-- Whatever was done before. -/
theorem ranges_history {c : IClient} (h : IHistory d xs c) : RangesRight d xs c.st := by
  induction h with
  | start => intro uo x o e L l _ _ h; cases h
  | step ha hd ih => exact ranges_did hok hfit hrefs (igood_history hok hrefs ha) ih hd

end

end

end Pstack.Props
