import Verif.Props.CanalScan
/-
C98: the report of canal.
-/
namespace Pstack.Props
open Pstack.Canal Pstack.Reader Pstack.Spec Pstack.Args

variable {read : Nat → Nat → Res (List Byte)} {sz : Nat}

/-- The entries with their counts raised. -/
def raised (m : OMap Sym) (c : Nat → Nat) : OMap Sym := m.map (fun e => (e.1, seen e.2 (c e.1)))

theorem raised_zero (m : OMap Sym) : raised m (fun _ => 0) = m := by
  unfold raised
  conv => rhs; rw [← List.map_id m]
  rfl

theorem bump_raised (m : OMap Sym) (c : Nat → Nat) (k : Nat) : bump (raised m c) k = raised m (fun j => if j = k then c j + 1 else c j) := by
  unfold bump raised
  rw [List.map_map]
  apply List.map_congr_left
  intro e _
  simp only [Function.comp]
  split
  · simp [seen, Nat.add_assoc]
  · rfl

theorem lower_raised (m : OMap Sym) (c : Nat → Nat) (p : Nat) : OMap.lowerBound p (raised m c) = (OMap.lowerBound p m).map (fun e => (e.1, seen e.2 (c e.1))) := by
  unfold OMap.lowerBound raised
  rw [List.dropWhile_map]
  rfl

/-- What is done with a word. -/
def symDo (mat : BitVec 64 → Sym → Bool) (shows : Bool) (f : Found) (w : Nat × Nat) : Found :=
  match OMap.lowerBound w.2 f.store with
  | [] => f
  | (k, s) :: _ => if mat (BitVec.ofNat 64 w.2) s then ⟨if shows then f.out ++ showLine s w.1 w.2 else f.out, bump f.store k⟩ else f

/-- The line for a word. -/
def wordLine (mat : BitVec 64 → Sym → Bool) (m : OMap Sym) (w : Nat × Nat) : List Byte :=
  match OMap.lowerBound w.2 m with
  | [] => []
  | (_, s) :: _ => if mat (BitVec.ofNat 64 w.2) s then showLine s w.1 w.2 else []

/-- If the word is for the entry. -/
def wordHits (mat : BitVec 64 → Sym → Bool) (m : OMap Sym) (k : Nat) (w : Nat × Nat) : Bool :=
  match OMap.lowerBound w.2 m with
  | [] => false
  | (j, s) :: _ => decide (j = k) && mat (BitVec.ofNat 64 w.2) s

theorem sym_fold {mat : BitVec 64 → Sym → Bool} (hmat : ∀ a s n, mat a (seen s n) = mat a s) (shows : Bool) (m : OMap Sym) :
    ∀ (ws : List (Nat × Nat)) (c : Nat → Nat) (out : List Byte),
      ws.foldl (symDo mat shows) ⟨out, raised m c⟩ = ⟨out ++ (if shows then ws.flatMap (wordLine mat m) else []), raised m (fun k => c k + ws.countP (wordHits mat m k))⟩
  | [], c, out => by cases shows <;> simp
  | w :: ws, c, out => by
      rw [List.foldl_cons]
      unfold symDo
      simp only
      rw [lower_raised]
      have hl : ∀ l, OMap.lowerBound w.2 m = l → l = OMap.lowerBound w.2 m := fun _ h => h.symm
      cases hb : OMap.lowerBound w.2 m with
      | nil =>
        simp only [List.map_nil]
        have h := sym_fold hmat shows m ws c out
        unfold symDo at h
        rw [h]
        have e1 : wordLine mat m w = [] := by unfold wordLine; rw [hb]
        have e2 : ∀ k, wordHits mat m k w = false := by intro k; unfold wordHits; rw [hb]
        congr 1
        · rw [List.flatMap_cons, e1, List.nil_append]
        · congr 1
          funext k
          rw [List.countP_cons_of_neg (by rw [e2]; decide)]
      | cons x t =>
        obtain ⟨j, s⟩ := x
        simp only [List.map_cons]
        rw [hmat]
        have e1 : wordLine mat m w = if mat (BitVec.ofNat 64 w.2) s then showLine s w.1 w.2 else [] := by unfold wordLine; rw [hb]
        have e2 : ∀ k, wordHits mat m k w = (decide (j = k) && mat (BitVec.ofNat 64 w.2) s) := by intro k; unfold wordHits; rw [hb]
        cases hm : mat (BitVec.ofNat 64 w.2) s with
        | false =>
          rw [if_neg (by decide)]
          have h := sym_fold hmat shows m ws c out
          unfold symDo at h
          rw [h]
          rw [hm, if_neg (by decide)] at e1
          congr 1
          · rw [List.flatMap_cons, e1, List.nil_append]
          · congr 1
            funext k
            rw [List.countP_cons_of_neg (by rw [e2, hm, Bool.and_false]; decide)]
        | true =>
          rw [if_pos rfl, bump_raised]
          have h := fun o => sym_fold hmat shows m ws (fun i => if i = j then c i + 1 else c i) o
          unfold symDo at h
          rw [h]
          rw [hm, if_pos rfl] at e1
          congr 1
          · rw [List.flatMap_cons, e1]
            cases shows
            · rfl
            · simp only [if_true, List.append_assoc]
              rfl
          · congr 1
            funext k
            rw [List.countP_cons, e2, hm]
            by_cases hk : k = j
            · subst hk; simp; omega
            · simp [hk, Ne.symm hk]

/-- The word refers to at most one symbol, and that is found. -/
theorem word_entry {syms : List Sym} (st : StoreOf m syms) (ha : Apart syms) (hnd : ∀ s ∈ syms, ∀ t ∈ syms, hi s = hi t → s = t)
    {mat : BitVec 64 → Sym → Bool} {off : Option Nat} {w : Nat} (hmat : ∀ s ∈ syms, mat (BitVec.ofNat 64 w) s = WordRefers off s w)
    (hin : ∀ s ∈ syms, WordRefers off s w = true → lo s ≤ w ∧ w ≤ hi s) {s : Sym} (hs : s ∈ syms) :
    WordRefers off s w = true ↔ ∃ t, OMap.lowerBound w m = (hi s, s) :: t ∧ mat (BitVec.ofNat 64 w) s = true := by
  constructor
  · intro h
    obtain ⟨h1, h2⟩ := hin s hs h
    obtain ⟨e, h3, h4⟩ := st.complete s hs
    obtain ⟨x, t, h5, h6⟩ := OMap.lowerBound_le st.sorted h3 (k := w) (by omega)
    obtain ⟨h7, h8⟩ := OMap.lowerBound_cons h5
    obtain ⟨h9, h10⟩ := st.keyed x h7
    have : x.2 = s := by
      refine hnd _ h9 _ hs ?_
      have := ha x.2 h9 s hs
      have : lo x.2 ≤ hi x.2 := by unfold hi; omega
      omega
    refine ⟨t, ?_, by rw [hmat s hs, h]⟩
    rw [h5]
    congr 1
    obtain ⟨x1, x2⟩ := x
    simp only at h10 this
    rw [h10, this]
  · rintro ⟨t, _, h⟩
    rw [← hmat s hs, h]

theorem matcher_free {z : Int} (hz : z ≤ 0) {s : Sym} (hs : Fits s) {w : Nat} (hw : w < 2 ^ 64) : matcher z (BitVec.ofNat 64 w) s = WordRefers none s w := by
  unfold matcher
  rw [if_neg (by omega)]
  apply Bool.eq_iff_iff.2
  rw [offsetFree_iff _ _ hs, BitVec.toNat_ofNat, Nat.mod_eq_of_lt hw]
  unfold Covers WordRefers hi lo
  simp

theorem matcher_bound {o : Nat} (h0 : 0 < o) (h1 : o < 2 ^ 31) {s : Sym} (hs : Fits s) (ho : o ≤ s.size.toNat) {w : Nat} (hw : w < 2 ^ 64) :
    matcher (o : Int) (BitVec.ofNat 64 w) s = WordRefers (some o) s w := by
  unfold matcher
  rw [if_pos (by omega)]
  apply Bool.eq_iff_iff.2
  unfold offsetBound WordRefers
  simp only [decide_eq_true_eq, Option.elim]
  have e := memaddr_lo s hs
  have e3 : (BitVec.ofInt 64 (o : Int)).toNat = o := by
    rw [show BitVec.ofInt 64 (o : Int) = BitVec.ofNat 64 o from rfl, BitVec.toNat_ofNat, Nat.mod_eq_of_lt (by omega)]
  have e2 : (s.memaddr + BitVec.ofInt 64 (o : Int)).toNat = lo s + o := by
    rw [BitVec.toNat_add, e, e3, Nat.mod_eq_of_lt]
    unfold Fits hi at hs
    omega
  rw [← BitVec.toNat_inj, e2, BitVec.toNat_ofNat, Nat.mod_eq_of_lt hw]
  unfold lo
  constructor <;> intro h <;> exact h.symm

theorem show_text (s : Sym) (hs : Fits s) (a w : Nat) (h1 : lo s ≤ w) (hw : w < 2 ^ 64) :
    showLine s a w = s.name ++ asciiText " 0x" ++ asciiText (String.ofList (Nat.toDigits 16 a)) ++ asciiText " ... size=" ++ decimalText s.size.toNat ++
        asciiText ", diff=" ++ decimalText (w - (s.value.toNat + s.objbase.toNat) : Nat) ++ [10#8] := by
  have e : say "\n" = [10#8] := by decide
  have e2 : (w + W64 - s.memaddr.toNat) % W64 = w - (s.value.toNat + s.objbase.toNat) := by
    rw [memaddr_lo s hs, W64_eq]
    unfold Fits hi at hs
    unfold lo at h1 hs ⊢
    omega
  unfold showLine
  rw [e, e2]
  simp only [List.append_assoc]
  rfl

theorem count_text (s : Sym) (n : Nat) (h0 : s.count = 0) (hn : 0 < n) :
    countLine (seen s n) = decimalText n ++ asciiText " " ++ s.name ++ asciiText " ( from " ++ s.objname ++ asciiText ")" ++ [10#8] := by
  have e : say "\n" = [10#8] := by decide
  have e2 : (seen s n).count = n := by show s.count + n = n; omega
  unfold countLine
  rw [if_pos (by omega), e, e2]
  simp only [List.append_assoc]
  rfl

/-- The symbols that match a pattern. -/
def ChosenSym (patterns : List (List Byte)) (syms : List Sym) (s : Sym) : Prop := s ∈ syms ∧ ∃ p ∈ patterns, Fills p s.name

/-- Symbols of different places do not touch, those of the same place are the same. -/
structure ApartSyms (sel : Sym → Prop) : Prop where
  fits : ∀ s, sel s → Fits s
  apart : ∀ s t, sel s → sel t → s = t ∨ hi s < lo t ∨ hi t < lo s
  zero : ∀ s, sel s → s.count = 0

/-- The value of the option `-o`: -1 if it is not given. -/
def OffsetGiven (z : Int) (off : Option Nat) : Prop := off.elim (z = -1) (fun o => z = o)

/-- An offset that can be used: not 0, a positive `int`, and not beyond the end of a symbol. -/
def OffsetWithin (sel : Sym → Prop) (off : Option Nat) : Prop := ∀ o, off = some o → 0 < o ∧ o < 2 ^ 31 ∧ ∀ s, sel s → o ≤ s.size.toNat

theorem given_matcher {sel : Sym → Prop} (hsel : ApartSyms sel) {z : Int} {off : Option Nat} (hz : OffsetGiven z off) (hin : OffsetWithin sel off) {s : Sym} (hs : sel s) {w : Nat} (hw : w < 2 ^ 64) :
    matcher z (BitVec.ofNat 64 w) s = WordRefers off s w := by
  cases off with
  | none =>
    have : z = -1 := hz
    exact matcher_free (by omega) (hsel.fits s hs) hw
  | some o =>
    have : z = o := hz
    obtain ⟨h1, h2, h3⟩ := hin o rfl
    rw [this]
    exact matcher_bound h1 h2 (hsel.fits s hs) (h3 s hs) hw

theorem refers_within {sel : Sym → Prop} {off : Option Nat} (hin : OffsetWithin sel off) {s : Sym} (hs : sel s) {w : Nat} (h : WordRefers off s w = true) : lo s ≤ w ∧ w ≤ hi s := by
  cases off with
  | none =>
    unfold WordRefers at h
    simp only [Option.elim, decide_eq_true_eq] at h
    unfold hi lo
    omega
  | some o =>
    obtain ⟨_, _, h3⟩ := hin o rfl
    have := h3 s hs
    unfold WordRefers at h
    simp only [Option.elim, decide_eq_true_eq] at h
    unfold hi lo
    omega

theorem matcher_seen (z : Int) (a : BitVec 64) (s : Sym) (n : Nat) : matcher z a (seen s n) = matcher z a s := by
  unfold matcher
  split <;> rfl

theorem words_small (hsz : sz = 4 ∨ sz = 8) {mem : List (Nat × List Byte)} {w : Nat × Nat} (h : w ∈ memWords sz mem) : w.2 < 2 ^ 64 := by
  unfold memWords partWords at h
  obtain ⟨m, _, h⟩ := List.mem_flatMap.1 h
  obtain ⟨i, _, rfl⟩ := List.mem_map.1 h
  simp only
  have h1 := Pstack.Dwarf.leNat_lt ((m.2.drop (i * sz)).take sz)
  refine Nat.lt_of_lt_of_le h1 ?_
  have h2 : ((m.2.drop (i * sz)).take sz).length ≤ 8 := by rw [List.length_take]; omega
  rw [show (2 : Nat) ^ 64 = 256 ^ 8 from rfl]
  exact Nat.pow_le_pow_right (by decide) h2

/-- A symbol as it was before it was counted. -/
def unseen (s : Sym) : Sym := { s with count := 0 }

theorem report_rows {sort : List Sym → List Sym} (hs : SortsDown sort) {vals : List Sym} (hv : vals.Nodup) (h0 : ∀ s ∈ vals, s.count = 0) {off : Option Nat} {ws : List (Nat × Nat)}
    {sel : Sym → Prop} (hsel : ∀ s, s ∈ vals ↔ sel s) : RefReport sel off ws ((sort (vals.map (fun s => seen s (refCount off ws s)))).flatMap countLine) := by
  obtain ⟨h1, h2⟩ := hs (vals.map (fun s => seen s (refCount off ws s)))
  generalize sort (vals.map (fun s => seen s (refCount off ws s))) = L at h1 h2
  have hun : ∀ s ∈ vals, unseen (seen s (refCount off ws s)) = s := by
    intro s hm
    have := h0 s hm
    obtain ⟨a, b, c, d, e, f⟩ := s
    simp only at this
    subst this
    rfl
  have hmem : ∀ t ∈ L, unseen t ∈ vals ∧ t = seen (unseen t) (refCount off ws (unseen t)) := by
    intro t ht
    obtain ⟨s, hm, rfl⟩ := List.mem_map.1 (h1.mem_iff.1 ht)
    rw [hun s hm]
    exact ⟨hm, rfl⟩
  have hcount : ∀ t ∈ L, t.count = refCount off ws (unseen t) := by
    intro t ht
    obtain ⟨ha, hb⟩ := hmem t ht
    have hc : (seen (unseen t) (refCount off ws (unseen t))).count = refCount off ws (unseen t) := by
      show (0 : Nat) + _ = _
      omega
    rw [← hb] at hc
    exact hc
  refine ⟨(L.filter (fun t => decide (t.count ≠ 0))).map unseen, ?_, ?_, ?_, ?_⟩
  · refine List.Nodup.sublist (List.Sublist.map _ List.filter_sublist) ?_
    refine (h1.map unseen).nodup_iff.2 ?_
    rw [List.map_map]
    have e : List.map (unseen ∘ fun s => seen s (refCount off ws s)) vals = vals.map id := List.map_congr_left (fun s hm => hun s hm)
    rw [e, List.map_id]
    exact hv
  · intro s
    rw [List.mem_map]
    constructor
    · rintro ⟨t, ht, rfl⟩
      obtain ⟨ha, hb⟩ := List.mem_filter.1 ht
      have := hcount t ha
      simp only [decide_eq_true_eq] at hb
      exact ⟨(hsel _).1 (hmem t ha).1, by omega⟩
    · rintro ⟨ha, hb⟩
      have hm := (hsel s).2 ha
      have ht : seen s (refCount off ws s) ∈ L := h1.mem_iff.2 (List.mem_map.2 ⟨s, hm, rfl⟩)
      refine ⟨_, List.mem_filter.2 ⟨ht, ?_⟩, hun s hm⟩
      have := hcount _ ht
      rw [hun s hm] at this
      simp only [decide_eq_true_eq]
      omega
  · rw [List.pairwise_map]
    refine List.Pairwise.imp_of_mem ?_ (h2.filter _)
    intro a b ha hb h
    rw [← hcount a (List.mem_filter.1 ha |>.1), ← hcount b (List.mem_filter.1 hb |>.1)]
    exact h
  · rw [List.flatMap_map]
    clear h1 h2
    induction L with
    | nil => rfl
    | cons t L ih =>
      have hc := hcount t List.mem_cons_self
      have ih := ih (fun x hx => hmem x (List.mem_cons_of_mem _ hx)) (fun x hx => hcount x (List.mem_cons_of_mem _ hx))
      rw [List.flatMap_cons, ih]
      by_cases hz : t.count = 0
      · rw [List.filter_cons_of_neg (by simp [hz])]
        unfold countLine
        rw [if_neg (by omega), List.nil_append]
      · rw [List.filter_cons_of_pos (by simp [hz]), List.flatMap_cons]
        congr 1
        obtain ⟨ha, hb⟩ := hmem t List.mem_cons_self
        conv => lhs; rw [hb]
        exact count_text (unseen t) (refCount off ws (unseen t)) rfl (by rw [← hc]; exact Nat.pos_of_ne_zero hz)

/-- C98. For every memory, all patterns and symbols that do not touch, canal writes a line for each matching symbol that some words refer to, with their number, by falling number. With `-s`, a line for each of these words is before that. -/
theorem C98_report_partial (hsz : sz = 4 ∨ sz = 8) {areas : List Area} {mem : List (Nat × List Byte)} (hm : CanalMemory read areas mem) (hw : WholeWords sz mem)
    {patterns : List (List Byte)} {syms : List Sym} (hp : ∀ p ∈ patterns, (0 : Byte) ∉ p) (hn : ∀ s ∈ syms, (0 : Byte) ∉ s.name) (hsel : ApartSyms (ChosenSym patterns syms))
    {z : Int} {off : Option Nat} (hz : OffsetGiven z off) (hin : OffsetWithin (ChosenSym patterns syms) off) {sort : List Sym → List Sym} (hs : SortsDown sort) (shows : Bool) :
    ∃ shown text, canal read areas sz [] z shows sort (collect patterns syms) = .ok (shown ++ text) ∧ (shows = true → RefLines (ChosenSym patterns syms) off (memWords sz mem) shown) ∧
      (shows = false → shown = []) ∧ RefReport (ChosenSym patterns syms) off (memWords sz mem) text := by
  obtain ⟨sel, h1, h2⟩ := C51_collected patterns syms hp hn
  rw [h1]
  have h2 : ∀ s, s ∈ sel ↔ ChosenSym patterns syms s := h2
  have st := storeOf_fill sel (fun s h => hsel.fits s ((h2 s).1 h))
  generalize sel.foldl add [] = m at st
  have hapart : Apart sel := by
    intro s hs t ht
    rcases hsel.apart s t ((h2 s).1 hs) ((h2 t).1 ht) with rfl | h | h
    · exact .inl ⟨rfl, rfl⟩
    · exact .inr (.inl h)
    · exact .inr (.inr h)
  have hnd : ∀ s ∈ sel, ∀ t ∈ sel, hi s = hi t → s = t := by
    intro s hs t ht he
    rcases hsel.apart s t ((h2 s).1 hs) ((h2 t).1 ht) with h | h | h
    · exact h
    · have : lo t ≤ hi t := by unfold hi; omega
      omega
    · have : lo s ≤ hi s := by unfold hi; omega
      omega
  have hent : ∀ w ∈ memWords sz mem, ∀ s ∈ sel, WordRefers off s w.2 = true ↔ ∃ t, OMap.lowerBound w.2 m = (hi s, s) :: t ∧ matcher z (BitVec.ofNat 64 w.2) s = true := by
    intro w hwm s hs
    exact word_entry st hapart hnd (fun x hx => given_matcher hsel hz hin ((h2 x).1 hx) (words_small hsz hwm)) (fun x hx => refers_within hin ((h2 x).1 hx)) hs
  have hlow : ∀ w ∈ memWords sz mem, ∀ k s t, OMap.lowerBound w.2 m = (k, s) :: t → s ∈ sel ∧ k = hi s := by
    intro w _ k s t h
    exact st.keyed _ (OMap.lowerBound_cons h).1
  refine ⟨if shows then (memWords sz mem).flatMap (wordLine (matcher z) m) else [], _, ?_, ?_, ?_, report_rows hs (vals := m.map (·.2)) ?_ ?_ ?_⟩
  · unfold canal
    rw [show rangesOf [] [] = Res.ok [] from rfl, Res.bind_ok, if_pos (show ([] : List (Nat × Nat)).isEmpty = true from rfl), scan_all (g := symDo (matcher z) shows) hsz ?_ hm hw, Res.bind_ok]
    · have hf := sym_fold (matcher_seen z) shows m (memWords sz mem) (fun _ => 0) []
      rw [raised_zero] at hf
      rw [hf]
      simp only [List.nil_append]
      show Res.ok _ = _
      congr 3
      unfold raised
      rw [List.map_map, List.map_map]
      apply congrArg
      apply List.map_congr_left
      intro e he
      obtain ⟨k1, k2⟩ := st.keyed e he
      show seen e.2 (0 + List.countP (wordHits (matcher z) m e.1) (memWords sz mem)) = seen e.2 (refCount off (memWords sz mem) e.2)
      rw [Nat.zero_add]
      congr 1
      unfold refCount
      apply List.countP_congr
      intro w hwm
      rw [hent w hwm e.2 k1]
      unfold wordHits
      constructor
      · intro h
        cases hb : OMap.lowerBound w.2 m with
        | nil => rw [hb] at h; cases h
        | cons x t =>
          rw [hb] at h
          obtain ⟨j, s⟩ := x
          simp only [Bool.and_eq_true, decide_eq_true_eq] at h
          obtain ⟨k3, k4⟩ := hlow w hwm j s t hb
          have : s = e.2 := hnd _ k3 _ k1 (by omega)
          subst this
          exact ⟨t, by rw [k4], h.2⟩
      · rintro ⟨t, h3, h4⟩
        rw [h3]
        simp only [Bool.and_eq_true, decide_eq_true_eq]
        exact ⟨k2.symm, h4⟩
    · intro loc f i p hlt
      unfold symAct symDo
      rw [Nat.mod_eq_of_lt hlt]
      rfl
  · intro hsh
    rw [if_pos hsh]
    have hsm : ∀ w ∈ memWords sz mem, w.2 < 2 ^ 64 := fun w h => words_small hsz h
    generalize memWords sz mem = ws at hent hlow hsm
    induction ws with
    | nil => exact .nil
    | cons w ws ih =>
      have ih := ih (fun x hx => hent x (List.mem_cons_of_mem _ hx)) (fun x hx => hlow x (List.mem_cons_of_mem _ hx)) (fun x hx => hsm x (List.mem_cons_of_mem _ hx))
      have hent := hent w List.mem_cons_self
      have hlow := hlow w List.mem_cons_self
      have hsm := hsm w List.mem_cons_self
      rw [List.flatMap_cons]
      unfold wordLine
      cases hb : OMap.lowerBound w.2 m with
      | nil =>
        simp only [List.nil_append]
        refine .none ?_ ih
        intro s hc
        cases hr : WordRefers off s w.2 with
        | false => rfl
        | true =>
          obtain ⟨t, h, _⟩ := (hent s ((h2 s).2 hc)).1 hr
          rw [hb] at h
          cases h
      | cons x t =>
        obtain ⟨j, s⟩ := x
        obtain ⟨k3, k4⟩ := hlow j s t hb
        simp only
        cases hmt : matcher z (BitVec.ofNat 64 w.2) s with
        | false =>
          rw [if_neg (by decide), List.nil_append]
          refine .none ?_ ih
          intro s' hc
          cases hr : WordRefers off s' w.2 with
          | false => rfl
          | true =>
            obtain ⟨t', h, h'⟩ := (hent s' ((h2 s').2 hc)).1 hr
            rw [hb] at h
            injection h with h _
            injection h with _ h
            rw [h] at hmt
            rw [h'] at hmt
            cases hmt
        | true =>
          rw [if_pos rfl]
          have hr := (hent s k3).2 ⟨t, by rw [hb, k4], hmt⟩
          rw [show_text s (hsel.fits s ((h2 s).1 k3)) w.1 w.2 (refers_within hin ((h2 s).1 k3) hr).1 hsm]
          exact .one ((h2 s).1 k3) hr ih
  · intro hsh
    rw [if_neg (by rw [hsh]; decide)]
  · unfold List.Nodup
    rw [List.pairwise_map]
    refine List.Pairwise.imp_of_mem ?_ st.sorted
    intro a b ha hb h he
    have e1 := (st.keyed a ha).2
    have e2 := (st.keyed b hb).2
    rw [he] at e1
    omega
  · intro s hx
    obtain ⟨e, he, rfl⟩ := List.mem_map.1 hx
    exact hsel.zero _ ((h2 _).1 (st.keyed e he).1)
  · intro s
    rw [← h2, List.mem_map]
    constructor
    · rintro ⟨e, he, rfl⟩
      exact (st.keyed e he).1
    · intro hx
      obtain ⟨e, he, h3⟩ := st.complete s hx
      obtain ⟨h4, h5⟩ := st.keyed e he
      exact ⟨e, he, hnd _ h4 _ hx (by omega)⟩

/-- C98 does not hold for `-o 0`: it is as if no offset was given, and words anywhere in a symbol are counted. -/
theorem C98_not_zero (areas : List Area) (opts : List Opt) (shows : Bool) (sort : List Sym → List Sym) (store : OMap Sym) :
    canal read areas sz opts 0 shows sort store = canal read areas sz opts (-1) shows sort store := by
  have e : matcher 0 = matcher (-1) := by
    unfold matcher
    rw [if_neg (by omega), if_neg (by omega)]
  unfold canal
  rw [e]

/-- C98 does not hold for symbols that touch: if the one ends where the other starts, words with the address of the latter are not counted. -/
theorem C98_not_touching (hsz : sz = 4 ∨ sz = 8) {areas : List Area} {mem : List (Nat × List Byte)} (hm : CanalMemory read areas mem) (hw : WholeWords sz mem)
    {s t : Sym} (hs : Fits s) (ht : Fits t) (habut : hi s = lo t) (hne : lo t < hi t) (h0 : s.count = 0 ∧ t.count = 0) (hall : ∀ w ∈ memWords sz mem, w.2 = lo t)
    {sort : List Sym → List Sym} (hsort : SortsDown sort) (shows : Bool) :
    canal read areas sz [] (-1) shows sort ([s, t].foldl add []) = .ok [] := by
  have e : [s, t].foldl add [] = [(hi s, s), (hi t, t)] := by
    simp only [List.foldl, add, memaddr_hi s hs, memaddr_hi t ht, OMap.emplace]
    rw [if_neg (by omega), if_neg (by omega)]
  have hstep : ∀ w ∈ memWords sz mem, symDo (matcher (-1)) shows ⟨[], [s, t].foldl add []⟩ w = ⟨[], [s, t].foldl add []⟩ := by
    intro w hwm
    have h1 := words_small hsz hwm
    have h2 := hall w hwm
    unfold symDo
    rw [e]
    simp only [OMap.lowerBound, List.dropWhile]
    rw [show decide (hi s < w.2) = false by simp; omega]
    simp only
    rw [matcher_free (by decide) hs h1, if_neg]
    unfold WordRefers hi lo at *
    simp only [Option.elim, decide_eq_true_eq]
    omega
  unfold canal
  rw [show rangesOf [] [] = Res.ok [] from rfl, Res.bind_ok, if_pos (show ([] : List (Nat × Nat)).isEmpty = true from rfl), scan_all (g := symDo (matcher (-1)) shows) hsz ?_ hm hw, Res.bind_ok]
  · have : (memWords sz mem).foldl (symDo (matcher (-1)) shows) ⟨[], [s, t].foldl add []⟩ = ⟨[], [s, t].foldl add []⟩ := by
      generalize memWords sz mem = ws at hstep
      induction ws with
      | nil => rfl
      | cons w ws ih =>
        rw [List.foldl_cons, hstep w List.mem_cons_self]
        exact ih (fun x hx => hstep x (List.mem_cons_of_mem _ hx))
    rw [this]
    simp only
    rw [none_counted hsort]
    · rfl
    · intro x hx
      rw [e] at hx
      simp only [List.mem_cons, List.not_mem_nil, or_false] at hx
      rcases hx with rfl | rfl
      · exact h0.1
      · exact h0.2
  · intro loc f i p hlt
    unfold symAct symDo
    rw [Nat.mod_eq_of_lt hlt]
    rfl

/-- C98 does not hold for an offset beyond the end of a symbol: words that far from its start are not counted. -/
theorem C98_not_beyond (hsz : sz = 4 ∨ sz = 8) {areas : List Area} {mem : List (Nat × List Byte)} (hm : CanalMemory read areas mem) (hw : WholeWords sz mem)
    {s : Sym} (hs : Fits s) (h0 : s.count = 0) {o : Nat} (ho : s.size.toNat < o) (hall : ∀ w ∈ memWords sz mem, WordRefers (some o) s w.2 = true)
    {sort : List Sym → List Sym} (hsort : SortsDown sort) (shows : Bool) :
    canal read areas sz [] o shows sort (add [] s) = .ok [] := by
  have e : add [] s = [(hi s, s)] := by
    simp only [add, memaddr_hi s hs, OMap.emplace]
  have hstep : ∀ w ∈ memWords sz mem, symDo (matcher o) shows ⟨[], add [] s⟩ w = ⟨[], add [] s⟩ := by
    intro w hwm
    have h2 := hall w hwm
    unfold WordRefers at h2
    simp only [Option.elim, decide_eq_true_eq] at h2
    unfold symDo
    rw [e]
    simp only [OMap.lowerBound, List.dropWhile]
    rw [show decide (hi s < w.2) = true by simp; unfold hi lo; omega]
  unfold canal
  rw [show rangesOf [] [] = Res.ok [] from rfl, Res.bind_ok, if_pos (show ([] : List (Nat × Nat)).isEmpty = true from rfl), scan_all (g := symDo (matcher o) shows) hsz ?_ hm hw, Res.bind_ok]
  · have : (memWords sz mem).foldl (symDo (matcher o) shows) ⟨[], add [] s⟩ = ⟨[], add [] s⟩ := by
      generalize memWords sz mem = ws at hstep
      induction ws with
      | nil => rfl
      | cons w ws ih =>
        rw [List.foldl_cons, hstep w List.mem_cons_self]
        exact ih (fun x hx => hstep x (List.mem_cons_of_mem _ hx))
    rw [this]
    simp only
    rw [none_counted hsort]
    · rfl
    · intro x hx
      rw [e] at hx
      rw [List.mem_singleton.1 hx]
      exact h0
  · intro loc f i p hlt
    unfold symAct symDo
    rw [Nat.mod_eq_of_lt hlt]
    rfl

end Pstack.Props
