import Verif.Proof.Elf
/-
C29: segment lookup. C30: symbol lookup by address.
-/
namespace Pstack.Props
open Pstack.Reader Pstack.Elf Pstack.Search Pstack.Spec

/-! ## C29 -/

/-- The lookup is right for any remembered segment that is one of the object's. -/
theorem lookup_ok (file hdrs : List Phdr) (ha : Arranged 1 file hdrs) (hg : GoodSegments file) (last : Option Phdr)
    (hl : ∀ s, last = some s → s ∈ hdrs) (a : Nat) (ha64 : a < 2 ^ 64) :
    (∀ s, (getSegmentForAddress hdrs last a).1 = some s → s ∈ hdrs) ∧
    ∀ s, (getSegmentForAddress hdrs last a).2 = some s ↔ s ∈ hdrs ∧ InSegment s a := by
  obtain ⟨hperm, hsort⟩ := ha
  obtain ⟨hne, hdis⟩ := hg
  have hload : ∀ s ∈ hdrs, 0 < s.memsz ∧ s.vaddr + s.memsz ≤ 2 ^ 64 := by
    intro s hs
    have := (hperm.mem_iff).1 hs
    simp only [List.mem_filter, beq_iff_eq] at this
    exact hne s this.1 this.2
  have hdis' : hdrs.Pairwise (fun p q => ∀ a, ¬ (InSegment p a ∧ InSegment q a)) :=
    (hperm.pairwise_iff (by intro x y h a hh; exact h a ⟨hh.2, hh.1⟩)).2 hdis
  have hpair : hdrs.Pairwise (fun p q => p.vaddr + p.memsz ≤ q.vaddr) := by
    have := hsort.and hdis'
    apply List.Pairwise.imp_of_mem _ this
    intro p q hp hq ⟨h1, h2⟩
    have hq' := hload q hq
    have := h2 q.vaddr
    unfold InSegment at this
    omega
  have hget : ∀ (i j : Nat) (p q : Phdr), i < j → hdrs[i]? = some p → hdrs[j]? = some q → p.vaddr + p.memsz ≤ q.vaddr := by
    intro i j p q hij hi hj
    have hj' : j < hdrs.length := (List.getElem?_eq_some_iff.1 hj).1
    have hi' : i < hdrs.length := (List.getElem?_eq_some_iff.1 hi).1
    have := List.pairwise_iff_getElem.1 hpair i j hi' hj' hij
    rw [(List.getElem?_eq_some_iff.1 hi).2, (List.getElem?_eq_some_iff.1 hj).2] at this
    exact this
  -- the predicate, without wrap-around
  have hpred : ∀ s ∈ hdrs, endsBefore a s = decide (s.vaddr + s.memsz ≤ a) := by
    intro s hs
    obtain ⟨h1, h2⟩ := hload s hs
    unfold endsBefore
    by_cases he : s.vaddr + s.memsz = 2 ^ 64
    · rw [he]
      simp [W64]
      omega
    · rw [Nat.mod_eq_of_lt (by rw [W64_eq]; omega)]
      have : s.vaddr + s.memsz ≠ 0 := by omega
      simp [this]; omega
  have hpart : Partitioned (endsBefore a) hdrs := by
    intro i j x y hij hi hj hy
    have hx' := List.mem_of_getElem? hi
    have hy' := List.mem_of_getElem? hj
    rw [hpred x hx']
    rw [hpred y hy'] at hy
    have := hget i j x y hij hi hj
    have := hload y hy'
    simp only [decide_eq_true_eq] at hy ⊢
    omega
  obtain ⟨_, hlo, hhi⟩ := lowerBound_spec _ _ hpart
  -- membership of a covering segment pins the search
  have huniq : ∀ s t, s ∈ hdrs → t ∈ hdrs → InSegment s a → InSegment t a → s = t := by
    intro s t hs ht h1 h2
    obtain ⟨i, hi⟩ := List.getElem?_of_mem hs
    obtain ⟨j, hj⟩ := List.getElem?_of_mem ht
    unfold InSegment at h1 h2
    rcases Nat.lt_trichotomy i j with h | h | h
    · have := hget i j s t h hi hj; omega
    · subst h; rw [hi] at hj; exact Option.some.inj hj
    · have := hget j i t s h hj hi; omega
  have hsearch : ∀ s, (∃ pos, hdrs[lowerBound (endsBefore a) hdrs]? = some pos ∧ pos.vaddr ≤ a ∧ s = pos) ↔ s ∈ hdrs ∧ InSegment s a := by
    intro s
    constructor
    · rintro ⟨pos, h1, h2, rfl⟩
      have hm := List.mem_of_getElem? h1
      refine ⟨hm, h2, ?_⟩
      have := hhi _ _ (Nat.le_refl _) h1
      rw [hpred _ hm] at this
      simpa using this
    · rintro ⟨hm, h1, h2⟩
      obtain ⟨i, hi⟩ := List.getElem?_of_mem hm
      refine ⟨s, ?_, h1, rfl⟩
      have : i = lowerBound (endsBefore a) hdrs := by
        rcases Nat.lt_trichotomy i (lowerBound (endsBefore a) hdrs) with h | h | h
        · have := hlo i s h hi
          rw [hpred s hm] at this
          simp at this; omega
        · exact h
        · obtain ⟨t, ht⟩ : ∃ t, hdrs[lowerBound (endsBefore a) hdrs]? = some t :=
            ⟨_, List.getElem?_eq_getElem (by have := (List.getElem?_eq_some_iff.1 hi).1; omega)⟩
          have h3 := hget _ _ t s h ht hi
          have h4 := hhi _ t (Nat.le_refl _) ht
          rw [hpred t (List.mem_of_getElem? ht)] at h4
          simp at h4; omega
      rw [← this]; exact hi
  -- the three ways through the function
  have hgo : ∀ r, r = (match hdrs[lowerBound (endsBefore a) hdrs]? with
      | some pos => if pos.vaddr ≤ a then (some pos, some pos) else (last, none)
      | none => (last, none) : Option Phdr × Option Phdr) →
      (∀ s, r.1 = some s → s ∈ hdrs) ∧ ∀ s, r.2 = some s ↔ s ∈ hdrs ∧ InSegment s a := by
    intro r hr
    cases hp : hdrs[lowerBound (endsBefore a) hdrs]? with
    | none =>
      rw [hp] at hr; subst hr
      refine ⟨fun s h => hl s h, fun s => ⟨fun h => by simp at h, fun h => ?_⟩⟩
      obtain ⟨pos, h1, _⟩ := (hsearch s).2 h
      rw [hp] at h1; simp at h1
    | some pos =>
      rw [hp] at hr
      simp only at hr
      by_cases hv : pos.vaddr ≤ a
      · rw [if_pos hv] at hr; subst hr
        refine ⟨fun s h => ?_, fun s => ⟨fun h => ?_, fun h => ?_⟩⟩
        · simp only [Option.some.injEq] at h; subst h; exact List.mem_of_getElem? hp
        · simp only [Option.some.injEq] at h; subst h; exact (hsearch _).1 ⟨_, hp, hv, rfl⟩
        · obtain ⟨p, h1, _, h3⟩ := (hsearch s).2 h
          rw [hp] at h1
          simp only [Option.some.injEq] at h1
          rw [h3, h1]
      · rw [if_neg hv] at hr; subst hr
        refine ⟨fun s h => hl s h, fun s => ⟨fun h => by simp at h, fun h => ?_⟩⟩
        obtain ⟨p, h1, h2, _⟩ := (hsearch s).2 h
        rw [hp] at h1
        simp only [Option.some.injEq] at h1
        rw [h1] at hv; exact absurd h2 hv
  unfold getSegmentForAddress
  cases hlast : last with
  | none => rw [hlast] at hgo; exact hgo _ rfl
  | some l =>
    simp only
    by_cases hc : l.vaddr ≤ a ∧ (l.vaddr + l.memsz) % W64 > a
    · rw [if_pos hc]
      have hm := hl l hlast
      obtain ⟨h1, h2⟩ := hload l hm
      have hin : InSegment l a := by
        refine ⟨hc.1, ?_⟩
        have := Nat.mod_le (l.vaddr + l.memsz) W64
        omega
      refine ⟨fun s h => ?_, fun s => ⟨fun h => ?_, fun h => ?_⟩⟩
      · simp only [Option.some.injEq] at h; subst h; exact hm
      · simp only [Option.some.injEq] at h; subst h; exact ⟨hm, hin⟩
      · rw [huniq s l h.1 hm h.2 hin]
    · rw [if_neg hc]; rw [hlast] at hgo; exact hgo _ rfl

theorem afterLookups_mem (file hdrs : List Phdr) (ha : Arranged 1 file hdrs) (hg : GoodSegments file) (hist : List Nat)
    (h64 : ∀ a ∈ hist, a < 2 ^ 64) : ∀ last : Option Phdr, (∀ s, last = some s → s ∈ hdrs) →
    ∀ s, hist.foldl (fun last a => (getSegmentForAddress hdrs last a).1) last = some s → s ∈ hdrs := by
  induction hist with
  | nil => intro last hl s h; exact hl s h
  | cons a hist ih =>
    intro last hl s h
    rw [List.foldl_cons] at h
    exact ih (fun x hx => h64 x (by simp [hx])) _
      (lookup_ok file hdrs ha hg last hl a (h64 a (by simp))).1 s h

/-- C29. For every object whose loadable segments are non-empty, disjoint and do not wrap around, whatever order the program
headers have in the file, after any sequence of lookups: looking up an address returns a segment exactly if it is one of
the object's loadable segments and contains the address (so none exactly if no segment contains it). -/
theorem C29_segment_lookup_partial (file hdrs : List Phdr) (ha : Arranged 1 file hdrs) (hg : GoodSegments file) (hist : List Nat)
    (h64 : ∀ a ∈ hist, a < 2 ^ 64) (a : Nat) (ha64 : a < 2 ^ 64) (s : Phdr) :
    (getSegmentForAddress hdrs (afterLookups hdrs hist) a).2 = some s ↔
      s ∈ file ∧ s.type = 1 ∧ s.vaddr ≤ a ∧ a < s.vaddr + s.memsz := by
  unfold afterLookups
  rw [(lookup_ok file hdrs ha hg _ (afterLookups_mem file hdrs ha hg hist h64 none (by intro s h; cases h)) a ha64).2 s,
    ha.1.mem_iff]
  simp [InSegment, and_assoc]

/-- C29. The headers the constructor reads from a file are those encoded at `e_phoff`. -/
theorem C29_headers_read (io : Rdr) (h : io.WF) (phoff : Nat) (ps : List Phdr) (hf : ∀ p ∈ ps, PhdrFits p)
    (hin : phoff + ps.length * 56 ≤ io.size) (hfit : ps.length * 56 + 1008 < 2 ^ 64)
    (hbytes : (io.content.drop phoff).take (ps.length * 56) = (ps.map phdrBytes).flatten) :
    readPhdrs io phoff ps.length = .ok ps := by
  have hl : ps.length * 56 ≠ maxOff := by unfold maxOff; rw [W64_eq]; omega
  obtain ⟨hv1, hv2⟩ := view_content io h phoff (ps.length * 56) hl hin
  have hlen : ∀ e ∈ ps.map phdrBytes, e.length = 56 := by
    intro e he
    obtain ⟨p, _, rfl⟩ := List.mem_map.1 he
    exact phdrBytes_length p
  have hsz : (io.view phoff (ps.length * 56)).size = ps.length * 56 := by
    rw [← (content_length _ hv1).1, hv2, hbytes, flatten_length 56 _ hlen, List.length_map]
  unfold readPhdrs
  simp only
  rw [readerArray_rdr _ hv1 56 (1024 / 56) (by decide) (by decide) (by rw [hsz, W64_eq]; omega) (ps.map phdrBytes)
    (by rw [hv2, hbytes]) hlen, Res.bind_ok, List.map_map]
  show Res.ok _ = _
  congr 1
  conv => rhs; rw [← List.map_id ps]
  apply List.map_congr_left
  intro p hp
  exact phdr_decode p (hf p hp)

/-- Text at 0x1000, data at 0x3000, and a segment at the very end of the address space, in an unsorted file. -/
def C29_file : List Phdr :=
  [⟨1, 6, 0, 0x3000, 0, 0x100, 0x200, 0⟩, ⟨4, 0, 0, 0, 0, 8, 8, 0⟩, ⟨1, 5, 0, 0x1000, 0, 0x800, 0x800, 0⟩,
    ⟨1, 5, 0, 0xfffffffffffff000, 0, 0, 0x1000, 0⟩]

def C29_sorted : List Phdr :=
  [⟨1, 5, 0, 0x1000, 0, 0x800, 0x800, 0⟩, ⟨1, 6, 0, 0x3000, 0, 0x100, 0x200, 0⟩,
    ⟨1, 5, 0, 0xfffffffffffff000, 0, 0, 0x1000, 0⟩]

example : Arranged 1 C29_file C29_sorted ∧ GoodSegments C29_file := by
  refine ⟨⟨by decide, by decide⟩, ?_, ?_⟩
  · decide
  · have e : C29_file.filter (fun p => p.type == 1) = [⟨1, 6, 0, 0x3000, 0, 0x100, 0x200, 0⟩,
      ⟨1, 5, 0, 0x1000, 0, 0x800, 0x800, 0⟩, ⟨1, 5, 0, 0xfffffffffffff000, 0, 0, 0x1000, 0⟩] := rfl
    rw [e]
    simp only [List.pairwise_cons, List.mem_cons, List.not_mem_nil, or_false, forall_eq_or_imp, forall_eq, InSegment]
    refine ⟨⟨?_, ?_⟩, ?_, ?_, ?_⟩ <;> first | (intro a; omega) | (intro a h; exact h.elim) | exact List.Pairwise.nil

/-- C29 fails for an empty segment that starts where another one does: with this (allowed) order of the two the address 7 of
the segment [5, 10) is not found. -/
theorem C29_not_empty_segment : ∃ (file hdrs : List Phdr) (s : Phdr), Arranged 1 file hdrs ∧ s ∈ file ∧ s.type = 1 ∧
    InSegment s 7 ∧ (getSegmentForAddress hdrs none 7).2 = none := by
  refine ⟨[⟨1, 5, 0, 5, 0, 5, 5, 0⟩, ⟨1, 5, 0, 5, 0, 0, 0, 0⟩], [⟨1, 5, 0, 5, 0, 5, 5, 0⟩, ⟨1, 5, 0, 5, 0, 0, 0, 0⟩],
    ⟨1, 5, 0, 5, 0, 5, 5, 0⟩, ⟨by decide, by decide⟩, by decide, rfl, ⟨by decide, by decide⟩, ?_⟩
  simp [getSegmentForAddress, lowerBound, lbLoop, endsBefore, W64]

/-- C29 fails for an empty segment at address 0: it is returned for every address below the next segment. -/
theorem C29_not_empty_at_zero : ∃ (file hdrs : List Phdr), Arranged 1 file hdrs ∧
    (getSegmentForAddress hdrs none 7).2 = some ⟨1, 5, 0, 0, 0, 0, 0, 0⟩ := by
  refine ⟨[⟨1, 5, 0, 0, 0, 0, 0, 0⟩], [⟨1, 5, 0, 0, 0, 0, 0, 0⟩], ⟨by decide, by decide⟩, ?_⟩
  simp [getSegmentForAddress, lowerBound, lbLoop, endsBefore, W64]

/-! ## C30 -/

theorem entries_of (t : Symtab) (syms : List Sym) (h : HoldsSyms t.symbols syms) : t.entries = .ok syms := by
  unfold Symtab.entries
  rcases h with ⟨h1, h2⟩ | ⟨h1, h2, h3, h4⟩
  · rw [h1, h2]; rfl
  · have hlen : ∀ e ∈ syms.map symBytes, e.length = 24 := by
      intro e he
      obtain ⟨p, _, rfl⟩ := List.mem_map.1 he
      exact symBytes_length p
    rw [readerArray_rdr t.symbols h1 24 (1024 / 24) (by decide) (by decide) (by rw [W64_eq]; omega) _ h3 hlen, Res.bind_ok,
      List.map_map]
    show Res.ok _ = _
    congr 1
    conv => rhs; rw [← List.map_id syms]
    apply List.map_congr_left
    intro s hs
    exact sym_decode s (h4 s hs)

theorem and_two (n : Nat) : n &&& 2 = 0 ↔ n.testBit 1 = false := by
  constructor
  · intro h
    have := congrArg (fun x => Nat.testBit x 1) h
    simp only [Nat.testBit_and, Nat.zero_testBit] at this
    cases hb : n.testBit 1 with
    | false => rfl
    | true => rw [hb] at this; revert this; decide
  · intro h
    apply Nat.eq_of_testBit_eq
    intro i
    rw [Nat.testBit_and]
    by_cases hi : i = 1
    · subst hi; simp [h]
    · have : Nat.testBit 2 i = false := by
        rw [show (2 : Nat) = 2 ^ 1 from rfl, Nat.testBit_two_pow]
        simp; omega
      simp [this]

/-- The table's symbols do not wrap around the address space, and their names can be read. -/
def Readable (t : Symtab) (syms : List Sym) : Prop :=
  (∀ s ∈ syms, s.value + s.size < 2 ^ 64) ∧ ∀ s ∈ syms, ∃ n, t.nameOf s = .ok n

/-- One table: the result is the first eligible covering symbol, with its name. -/
theorem findSymIn_spec (t : Symtab) (secs : List Nat) (addr type : Nat) (syms : List Sym) (hr : Readable t syms) :
    ∃ r, findSymIn t secs addr type syms = .ok r ∧
      (r = none → ∀ s ∈ syms, ¬ (Eligible secs type s ∧ SymCovers s addr)) ∧
      (∀ s n, r = some (s, n) → t.nameOf s = .ok n ∧ Eligible secs type s ∧ SymCovers s addr ∧
        ∃ before after, syms = before ++ s :: after ∧ ∀ u ∈ before, ¬ (Eligible secs type u ∧ SymCovers u addr)) := by
  induction syms with
  | nil => exact ⟨none, rfl, fun _ s h => by simp at h, fun s n h => by cases h⟩
  | cons c rest ih =>
    obtain ⟨hfit, hname⟩ := hr
    obtain ⟨r, hr1, hr2, hr3⟩ := ih ⟨fun s hs => hfit s (by simp [hs]), fun s hs => hname s (by simp [hs])⟩
    have hskip : ¬ (Eligible secs type c ∧ SymCovers c addr) →
        (r = none → ∀ s ∈ c :: rest, ¬ (Eligible secs type s ∧ SymCovers s addr)) ∧
        (∀ s n, r = some (s, n) → t.nameOf s = .ok n ∧ Eligible secs type s ∧ SymCovers s addr ∧
          ∃ before after, c :: rest = before ++ s :: after ∧ ∀ u ∈ before, ¬ (Eligible secs type u ∧ SymCovers u addr)) := by
      intro hc
      refine ⟨fun hn s hs => ?_, fun s n hs => ?_⟩
      · rcases List.mem_cons.1 hs with rfl | hs
        · exact hc
        · exact hr2 hn s hs
      · obtain ⟨h1, h2, h3, b, a, h4, h5⟩ := hr3 s n hs
        refine ⟨h1, h2, h3, c :: b, a, by rw [h4]; rfl, ?_⟩
        intro u hu
        rcases List.mem_cons.1 hu with rfl | hu
        · exact hc
        · exact h5 u hu
    have hcfit := hfit c (by simp)
    unfold findSymIn
    by_cases h1 : c.shndx ≥ secs.length
    · rw [if_pos h1]
      exact ⟨r, hr1, hskip (by rintro ⟨⟨_, f, hf, _⟩, _⟩; rw [List.getElem?_eq_none h1] at hf; cases hf)⟩
    · rw [if_neg h1]
      by_cases h2 : type ≠ STT_NOTYPE ∧ c.info % 16 ≠ type
      · rw [if_pos h2]
        exact ⟨r, hr1, hskip (by rintro ⟨⟨h, _⟩, _⟩; rcases h with h | h; exact h2.1 h; exact h2.2 h)⟩
      · rw [if_neg h2]
        by_cases h3 : c.value > addr
        · rw [if_pos h3]
          exact ⟨r, hr1, hskip (by rintro ⟨_, h, _⟩; omega)⟩
        · rw [if_neg h3]
          have hmod : (c.size + c.value) % W64 = c.size + c.value := Nat.mod_eq_of_lt (by rw [W64_eq]; omega)
          rw [hmod]
          by_cases h4 : c.size + c.value ≤ addr
          · rw [if_pos h4]
            have hno := hskip (by rintro ⟨_, _, h⟩; omega)
            by_cases h5 : c.size = 0 ∧ c.value = addr
            · rw [if_pos h5]
              obtain ⟨n, hn⟩ := hname c (by simp)
              rw [hn, Res.bind_ok]
              exact ⟨r, hr1, hno⟩
            · rw [if_neg h5]
              exact ⟨r, hr1, hno⟩
          · rw [if_neg h4]
            have hsec : secs[c.shndx]? = some (secs[c.shndx]'(by omega)) := List.getElem?_eq_getElem (by omega)
            generalize (secs[c.shndx]'(by omega)) = flags at hsec
            rw [hsec]
            simp only
            by_cases h6 : flags &&& SHF_ALLOC = 0
            · rw [if_pos h6]
              refine ⟨r, hr1, hskip ?_⟩
              rintro ⟨⟨_, f, hf, hb⟩, _⟩
              rw [hsec] at hf
              simp only [Option.some.injEq] at hf
              rw [← hf, (and_two flags).1 h6] at hb
              cases hb
            · rw [if_neg h6]
              obtain ⟨n, hn⟩ := hname c (by simp)
              rw [hn, Res.bind_ok]
              refine ⟨some (c, n), rfl, (fun h => by cases h), ?_⟩
              intro s n' hs
              simp only [Option.some.injEq, Prod.mk.injEq] at hs
              obtain ⟨rfl, rfl⟩ := hs
              refine ⟨hn, ⟨?_, flags, hsec, ?_⟩, ⟨by omega, by omega⟩, [], rest, rfl, by simp⟩
              · by_cases ht : type = 0
                · exact .inl ht
                · right
                  by_cases hi : c.info % 16 = type
                  · exact hi
                  · exact absurd ⟨ht, hi⟩ h2
              · cases hb : flags.testBit 1 with
                | true => rfl
                | false => exact absurd ((and_two flags).2 hb) h6

/-- C30, one symbol table. The result is the first symbol of the table that is eligible (right type, in an allocated section) and
covers the address, with its name; there is none exactly if no eligible symbol covers the address. -/
theorem C30_table_lookup (t : Symtab) (secs : List Nat) (addr type : Nat) (syms : List Sym) (hs : HoldsSyms t.symbols syms)
    (hr : Readable t syms) :
    ∃ r, findSym t secs addr type = .ok r ∧
      (r = none ↔ ∀ s ∈ syms, ¬ (Eligible secs type s ∧ SymCovers s addr)) ∧
      (∀ s n, r = some (s, n) → t.nameOf s = .ok n ∧ Eligible secs type s ∧ SymCovers s addr ∧
        ∃ before after, syms = before ++ s :: after ∧ ∀ u ∈ before, ¬ (Eligible secs type u ∧ SymCovers u addr)) := by
  obtain ⟨r, h1, h2, h3⟩ := findSymIn_spec t secs addr type syms hr
  refine ⟨r, ?_, ⟨h2, ?_⟩, h3⟩
  · unfold findSym
    rw [entries_of t syms hs, Res.bind_ok, h1]
  · intro h
    cases r with
    | none => rfl
    | some p =>
      obtain ⟨s, n⟩ := p
      obtain ⟨_, he, hc, b, a, hm, _⟩ := h3 s n rfl
      exact absurd ⟨he, hc⟩ (h s (by rw [hm]; simp))

/-- The symbols an object has for lookup by address: those of `.symtab`, then those of `.dynsym`, then those of the embedded
mini debug object, each judged by the sections of its own object. -/
inductive Holds : SymObj → List (Symtab × List Nat × List Sym) → Prop
  | plain {debug dynamic : Symtab} {secs : List Nat} {ds ys : List Sym} (h1 : HoldsSyms debug.symbols ds) (h2 : Readable debug ds)
      (h3 : HoldsSyms dynamic.symbols ys) (h4 : Readable dynamic ys) :
      Holds (.mk debug dynamic secs none) [(debug, secs, ds), (dynamic, secs, ys)]
  | embedded {debug dynamic : Symtab} {secs : List Nat} {ds ys : List Sym} {o : SymObj} {more : List (Symtab × List Nat × List Sym)}
      (h1 : HoldsSyms debug.symbols ds) (h2 : Readable debug ds) (h3 : HoldsSyms dynamic.symbols ys) (h4 : Readable dynamic ys)
      (h5 : Holds o more) : Holds (.mk debug dynamic secs (some o)) ((debug, secs, ds) :: (dynamic, secs, ys) :: more)

/-- C30. The lookup always returns normally. What it returns is an eligible symbol of one of the object's tables that covers the
address, under its own name; and it returns none exactly if no eligible symbol in any table covers the address. -/
theorem C30_symbol_by_address_partial (o : SymObj) (tables : List (Symtab × List Nat × List Sym)) (h : Holds o tables) (addr type : Nat) :
    ∃ r, findSymbolByAddress o addr type = .ok r ∧
      (r = none ↔ ∀ t ∈ tables, ∀ s ∈ t.2.2, ¬ (Eligible t.2.1 type s ∧ SymCovers s addr)) ∧
      (∀ s n, r = some (s, n) → ∃ t ∈ tables, s ∈ t.2.2 ∧ t.1.nameOf s = .ok n ∧ Eligible t.2.1 type s ∧
        s.value ≤ addr ∧ addr < s.value + s.size) := by
  have two : ∀ (debug dynamic : Symtab) (secs : List Nat) (ds ys : List Sym) (e : Option SymObj)
      (more : List (Symtab × List Nat × List Sym)) (k : Res (Option (Sym × List Byte))),
      HoldsSyms debug.symbols ds → Readable debug ds → HoldsSyms dynamic.symbols ys → Readable dynamic ys →
      (match e with | none => (.ok none : Res (Option (Sym × List Byte))) | some o => findSymbolByAddress o addr type) = k →
      (∃ r, k = .ok r ∧ (r = none ↔ ∀ t ∈ more, ∀ s ∈ t.2.2, ¬ (Eligible t.2.1 type s ∧ SymCovers s addr)) ∧
        (∀ s n, r = some (s, n) → ∃ t ∈ more, s ∈ t.2.2 ∧ t.1.nameOf s = .ok n ∧ Eligible t.2.1 type s ∧
          s.value ≤ addr ∧ addr < s.value + s.size)) →
      ∃ r, findSymbolByAddress (.mk debug dynamic secs e) addr type = .ok r ∧
        (r = none ↔ ∀ t ∈ (debug, secs, ds) :: (dynamic, secs, ys) :: more, ∀ s ∈ t.2.2, ¬ (Eligible t.2.1 type s ∧ SymCovers s addr)) ∧
        (∀ s n, r = some (s, n) → ∃ t ∈ (debug, secs, ds) :: (dynamic, secs, ys) :: more, s ∈ t.2.2 ∧ t.1.nameOf s = .ok n ∧
          Eligible t.2.1 type s ∧ s.value ≤ addr ∧ addr < s.value + s.size) := by
    intro debug dynamic secs ds ys e more k h1 h2 h3 h4 hk ⟨r, hr1, hr2, hr3⟩
    obtain ⟨q, hq1, hq2, hq3⟩ := C30_table_lookup debug secs addr type ds h1 h2
    obtain ⟨p, hp1, hp2, hp3⟩ := C30_table_lookup dynamic secs addr type ys h3 h4
    cases q with
    | some x =>
      obtain ⟨s, n⟩ := x
      obtain ⟨g1, g2, g3, b, a, g4, _⟩ := hq3 s n rfl
      refine ⟨some (s, n), ?_, ⟨fun h => by (cases h), fun h => ?_⟩, ?_⟩
      · cases e <;> (unfold findSymbolByAddress; rw [hq1, Res.bind_ok]; rfl)
      · exact absurd ⟨g2, g3⟩ (h (debug, secs, ds) (by simp) s (by rw [g4]; simp))
      · intro s' n' hs
        simp only [Option.some.injEq, Prod.mk.injEq] at hs
        obtain ⟨rfl, rfl⟩ := hs
        exact ⟨(debug, secs, ds), by simp, by rw [g4]; simp, g1, g2, g3.1, g3.2⟩
    | none =>
      cases p with
      | some x =>
        obtain ⟨s, n⟩ := x
        obtain ⟨g1, g2, g3, b, a, g4, _⟩ := hp3 s n rfl
        refine ⟨some (s, n), ?_, ⟨fun h => by (cases h), fun h => ?_⟩, ?_⟩
        · cases e <;> (unfold findSymbolByAddress; rw [hq1, Res.bind_ok, hp1]; rfl)
        · exact absurd ⟨g2, g3⟩ (h (dynamic, secs, ys) (by simp) s (by rw [g4]; simp))
        · intro s' n' hs
          simp only [Option.some.injEq, Prod.mk.injEq] at hs
          obtain ⟨rfl, rfl⟩ := hs
          exact ⟨(dynamic, secs, ys), by simp, by rw [g4]; simp, g1, g2, g3.1, g3.2⟩
      | none =>
        refine ⟨r, ?_, ?_, ?_⟩
        · rw [← hr1, ← hk]
          cases e with
          | none => unfold findSymbolByAddress; rw [hq1, Res.bind_ok, hp1]; rfl
          | some o => rw [findSymbolByAddress, hq1, Res.bind_ok, hp1]; rfl
        · constructor
          · intro h t ht
            rcases List.mem_cons.1 ht with rfl | ht
            · exact hq2.1 rfl
            · rcases List.mem_cons.1 ht with rfl | ht
              · exact hp2.1 rfl
              · exact hr2.1 h t ht
          · intro h
            exact hr2.2 (fun t ht => h t (by simp [ht]))
        · intro s n hs
          obtain ⟨t, ht, h⟩ := hr3 s n hs
          exact ⟨t, by simp [ht], h⟩
  induction h with
  | plain h1 h2 h3 h4 =>
    exact two _ _ _ _ _ none [] _ h1 h2 h3 h4 rfl ⟨none, rfl, by simp, fun s n h => by cases h⟩
  | embedded h1 h2 h3 h4 h5 ih => exact two _ _ _ _ _ (some _) _ _ h1 h2 h3 h4 rfl ih

/-- Two symbols, `f` of size 16 at 0x1000 and `g` of size 0 at 0x1008, in section 1 (allocated). -/
def C30_syms : List Sym := [⟨1, 2, 0, 1, 0x1000, 16⟩, ⟨3, 2, 0, 1, 0x1008, 0⟩]
def C30_table : Symtab := ⟨.file (C30_syms.map symBytes).flatten, .file [0#8, 0x66#8, 0#8, 0x67#8, 0#8]⟩

example : Holds (.mk C30_table ⟨.null, .null⟩ [0, 6] none)
    [(C30_table, [0, 6], C30_syms), (⟨.null, .null⟩, [0, 6], [])] := by
  refine .plain (.inr ⟨?_, by decide +kernel, rfl, by simp [C30_syms, SymFits]⟩) ⟨by decide, ?_⟩ (.inl ⟨rfl, rfl⟩) ⟨by simp, by simp⟩
  · simp only [C30_table, Rdr.WF]
    decide +kernel
  · intro s hs
    simp only [C30_syms, List.mem_cons, List.not_mem_nil, or_false] at hs
    rcases hs with rfl | rfl
    · exact ⟨[0x66#8], by decide +kernel⟩
    · exact ⟨[0x67#8], by decide +kernel⟩

/-- The lookup in it: inside `f`, `f` is found; `g`, being empty, never is, not even at its own address in an object without `f`. -/
theorem C30_example : findSymbolByAddress (.mk C30_table ⟨.null, .null⟩ [0, 6] none) 0x1008 2 =
      .ok (some (⟨1, 2, 0, 1, 0x1000, 16⟩, [0x66#8])) ∧
    findSymbolByAddress (.mk C30_table ⟨.null, .null⟩ [0, 6] none) 0x1010 2 = .ok none := by
  constructor <;> decide +kernel

/-- C30 fails for a symbol that ends exactly at the top of the address space: its end wraps to 0 and it is passed over. -/
theorem C30_not_wrapping : ∃ (t : Symtab) (secs : List Nat) (s : Sym) (addr : Nat), Eligible secs 0 s ∧ SymCovers s addr ∧
    addr < 2 ^ 64 ∧ findSymIn t secs addr 0 [s] = .ok none := by
  refine ⟨⟨.null, .null⟩, [2], ⟨1, 2, 0, 0, 2 ^ 64 - 16, 16⟩, 2 ^ 64 - 8, ⟨.inl rfl, 2, rfl, rfl⟩, ⟨by decide, by decide⟩,
    by decide, ?_⟩
  decide +kernel

end Pstack.Props
