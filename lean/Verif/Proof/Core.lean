import Verif.Spec.Core
import Verif.Props.Segments
/-
Proofs about mapped objects and core memory.
-/
namespace Pstack.Proof
open Pstack.Reader Pstack.Elf Pstack.Core Pstack.Spec Pstack.Props

/-- What is remembered are segments of the objects. -/
def MemoOk (core : Option Obj) (m : Objects) (c : Memo) : Prop :=
  (∀ base o s, (base, some o) ∈ m → c.objs base = some s → s ∈ o.loads) ∧
  (∀ o s, core = some o → c.core = some s → s ∈ o.loads)

theorem memoOk_init (core : Option Obj) (m : Objects) : MemoOk core m Memo.init :=
  ⟨fun _ _ _ _ h => by (cases h), fun _ _ _ h => by (cases h)⟩

theorem loads_iff {o : Obj} (h : SoundObj o) (s : Phdr) : s ∈ o.loads ↔ LoadSeg o s := by
  rw [h.arranged.1.mem_iff]
  simp [LoadSeg]

/-- Two segments of one object with a common address are one. -/
theorem seg_unique {o : Obj} (h : SoundObj o) {s t : Phdr} {a : Nat} (hs : LoadSeg o s) (ht : LoadSeg o t) (h1 : InSegment s a)
    (h2 : InSegment t a) (ha : a < 2 ^ 64) : s = t := by
  have := (lookup_ok o.phdrs o.loads h.arranged h.good none (by intro s h; cases h) a ha).2
  have e1 := (this s).2 ⟨(loads_iff h s).2 hs, h1⟩
  have e2 := (this t).2 ⟨(loads_iff h t).2 ht, h2⟩
  rw [e1] at e2
  exact Option.some.inj e2

/-- The last segment ends last. -/
theorem last_end {o : Obj} (h : SoundObj o) {p s : Phdr} (hp : o.loads.getLast? = some p) (hs : LoadSeg o s) :
    s.vaddr + s.memsz ≤ p.vaddr + p.memsz := by
  have hs' := (loads_iff h s).2 hs
  have hpm := List.mem_of_getLast? hp
  have hpl := (loads_iff h p).1 hpm
  obtain ⟨ys, hys⟩ := List.getLast?_eq_some_iff.1 hp
  have hsort := h.arranged.2
  rw [hys] at hs' hsort
  have hle : s.vaddr ≤ p.vaddr := by
    rcases List.mem_append.1 hs' with h1 | h1
    · exact (List.pairwise_append.1 hsort).2.2 s h1 p (by simp)
    · simp only [List.mem_singleton] at h1; rw [h1]; exact Nat.le_refl _
  have hg1 := h.good.1 s hs.1 hs.2
  have hg2 := h.good.1 p hpl.1 hpl.2
  rcases Nat.lt_or_ge p.vaddr (s.vaddr + s.memsz) with h1 | h1
  · have : s = p := seg_unique h hs hpl (a := p.vaddr) ⟨hle, h1⟩ ⟨Nat.le_refl _, by omega⟩ (by omega)
    rw [this]; exact Nat.le_refl _
  · omega

/-- The object whose segment occupies an address is unique. -/
theorem mapped_unique {m : Objects} (hm : SoundObjects m) {b b' : Nat} {o o' : Obj} {s s' : Phdr} {a : Nat}
    (h : MappedAt m b o s a) (h' : MappedAt m b' o' s' a) : b = b' ∧ o = o' ∧ s = s' := by
  obtain ⟨h1, h2, h3, h4⟩ := h
  obtain ⟨g1, g2, g3, g4⟩ := h'
  have hb : b = b' := by
    rcases Nat.lt_trichotomy b b' with hlt | he | hlt
    · have := hm.apart b o s b' (some o') h1 g1 hlt h2; omega
    · exact he
    · have := hm.apart b' o' s' b (some o) g1 h1 hlt g2; omega
  subst hb
  have ho := OMap.sorted_inj hm.sorted h1 g1 rfl
  simp only [Prod.mk.injEq, Option.some.injEq, true_and] at ho
  subst ho
  have hso := (hm.sound b o h1).1
  have hf := hm.fits b o s h1 h2
  exact ⟨rfl, rfl, seg_unique hso h2 g2 (a := a - b) ⟨by omega, by omega⟩ ⟨by omega, by omega⟩ (by omega)⟩

theorem findSegment_spec (core : Option Obj) (m : Objects) (hm : SoundObjects m) (c : Memo) (hc : MemoOk core m c) (a : Nat)
    (ha : a < 2 ^ 64) (hfirst : ∀ o s, ¬ MappedAt m a o s a) :
    ∃ c' r, findSegment m c a = .ok (c', r) ∧ MemoOk core m c' ∧ ∀ base o s, r = some (base, o, s) ↔ MappedAt m base o s a := by
  -- a mapped segment belongs to the last object below
  have hkey : ∀ base o s, MappedAt m base o s a → ∃ k v, (OMap.below a m).getLast? = some (k, v) ∧ k = base ∧ v = some o := by
    intro base o s h
    have hlt : base < a := by
      rcases Nat.lt_or_ge base a with h1 | h1
      · exact h1
      · have : base = a := by have := h.2.2.1; omega
        subst this; exact absurd h (hfirst o s)
    cases hl : (OMap.below a m).getLast? with
    | none => have := OMap.below_none hm.sorted hl _ h.1; simp at this; omega
    | some e =>
      obtain ⟨k, v⟩ := e
      obtain ⟨h1, h2, h3⟩ := OMap.below_last hm.sorted hl
      have h4 := h3 _ h.1 hlt
      simp only at h2 h4
      have : k = base := by
        rcases Nat.lt_or_ge base k with h5 | h5
        · have := hm.apart base o s k v h.1 h1 h5 h.2.1
          have := h.2.2.2; omega
        · omega
      subst this
      have := OMap.sorted_inj hm.sorted h1 h.1 rfl
      simp only [Prod.mk.injEq, true_and] at this
      exact ⟨k, v, rfl, rfl, this⟩
  unfold findSegment
  cases hl : (OMap.below a m).getLast? with
  | none =>
    refine ⟨c, none, rfl, hc, fun base o s => ⟨(fun h => by cases h), fun h => ?_⟩⟩
    obtain ⟨k, v, h1, _⟩ := hkey base o s h
    rw [hl] at h1; cases h1
  | some e =>
    obtain ⟨k, v⟩ := e
    obtain ⟨h1, h2, h3⟩ := OMap.below_last hm.sorted hl
    simp only at h2
    cases v with
    | none =>
      refine ⟨c, none, rfl, hc, fun base o s => ⟨(fun h => by cases h), fun h => ?_⟩⟩
      obtain ⟨k', v', g1, _, g3⟩ := hkey base o s h
      rw [hl] at g1
      simp only [Option.some.injEq, Prod.mk.injEq] at g1
      rw [← g1.2] at g3; cases g3
    | some o =>
      obtain ⟨hso, s0, hs0⟩ := hm.sound k o h1
      have hk : ∀ base o' s, MappedAt m base o' s a → base = k ∧ o' = o := by
        intro base o' s h
        obtain ⟨k', v', g1, g2, g3⟩ := hkey base o' s h
        rw [hl] at g1
        simp only [Option.some.injEq, Prod.mk.injEq] at g1
        refine ⟨by rw [← g2, ← g1.1], ?_⟩
        rw [← g1.2] at g3
        simp only [Option.some.injEq] at g3
        exact g3.symm
      cases hp : o.loads.getLast? with
      | none =>
        rw [List.getLast?_eq_none_iff] at hp
        have := (loads_iff hso s0).2 hs0
        rw [hp] at this; cases this
      | some p =>
        have hpl := (loads_iff hso p).1 (List.mem_of_getLast? hp)
        have hpf := hm.fits k o p h1 hpl
        have he : o.endVA = .ok ((p.vaddr + p.memsz) % W64) := by unfold Obj.endVA; rw [hp]
        simp only
        rw [he, Res.bind_ok]
        have hlk := lookup_ok o.phdrs o.loads hso.arranged hso.good (c.objs k) (fun s h => hc.1 k o s h1 h) (a - k) (by omega)
        have hchar : ∀ s, s ∈ o.loads ∧ InSegment s (a - k) ↔ MappedAt m k o s a := by
          intro s
          rw [loads_iff hso]
          unfold MappedAt InSegment
          constructor
          · rintro ⟨g1, g2, g3⟩; exact ⟨h1, g1, by omega, by omega⟩
          · rintro ⟨_, g1, g2, g3⟩; exact ⟨g1, by omega, by omega⟩
        by_cases hge : (k + (p.vaddr + p.memsz) % W64) % W64 ≥ a
        · rw [if_pos hge]
          have hc' : MemoOk core m { c with objs := fun b => if b = k then (getSegmentForAddress o.loads (c.objs k) (a - k)).1 else c.objs b } := by
            refine ⟨?_, hc.2⟩
            intro base o' s g1 g2
            simp only at g2
            split at g2
            · rename_i hb
              subst hb
              have := OMap.sorted_inj hm.sorted h1 g1 rfl
              simp only [Prod.mk.injEq, Option.some.injEq, true_and] at this
              subst this
              exact hlk.1 s g2
            · exact hc.1 base o' s g1 g2
          cases hr : (getSegmentForAddress o.loads (c.objs k) (a - k)).2 with
          | none =>
            refine ⟨_, none, rfl, hc', fun base o' s => ⟨(fun h => by cases h), fun h => ?_⟩⟩
            obtain ⟨rfl, rfl⟩ := hk _ _ _ h
            have := (hlk.2 s).2 ((hchar s).2 h)
            rw [hr] at this; cases this
          | some t =>
            refine ⟨_, some (k, o, t), rfl, hc', fun base o' s => ⟨fun h => ?_, fun h => ?_⟩⟩
            · simp only [Option.some.injEq, Prod.mk.injEq] at h
              obtain ⟨rfl, rfl, rfl⟩ := h
              exact (hchar _).1 ((hlk.2 _).1 hr)
            · obtain ⟨rfl, rfl⟩ := hk _ _ _ h
              have := (hlk.2 s).2 ((hchar s).2 h)
              rw [hr] at this
              simp only [Option.some.injEq] at this
              rw [this]
        · rw [if_neg hge]
          refine ⟨c, none, rfl, hc, fun base o' s => ⟨(fun h => by cases h), fun h => ?_⟩⟩
          obtain ⟨rfl, rfl⟩ := hk _ _ _ h
          exfalso
          apply hge
          have g1 := last_end hso hp h.2.1
          have g2 := h.2.2.2
          have g3 := hso.good.1 p hpl.1 hpl.2
          rw [Nat.mod_eq_of_lt (a := p.vaddr + p.memsz) (by rw [W64_eq]; omega), Nat.mod_eq_of_lt (by rw [W64_eq]; omega)]
          omega

theorem readFromHdr_spec (io : Rdr) (hio : io.WF) (h : Phdr) (hsz : h.filesz ≤ h.memsz) (hin : h.offset + h.filesz ≤ io.size)
    (a size tc : Nat) (h64 : h.vaddr + h.memsz ≤ 2 ^ 64) (h1 : h.vaddr ≤ a) (h2 : a < h.vaddr + h.memsz) :
    ∃ bs, readFromHdr io h a size tc = .ok (bs, max (tc - bs.length) (min (size - bs.length) (h.vaddr + h.memsz - (a + bs.length)))) ∧
      bs.length = min (h.vaddr + h.filesz - a) size ∧
      ∀ i b, bs[i]? = some b → io.content[h.offset + (a + i - h.vaddr)]? = some b := by
  have hoff : (a + W64 - h.vaddr) % W64 = a - h.vaddr := by
    rw [W64_eq, show a + 2 ^ 64 - h.vaddr = (a - h.vaddr) + 2 ^ 64 by omega, Nat.add_mod_right, Nat.mod_eq_of_lt (by omega)]
  have hlen := content_length io hio
  -- the tail, once the bytes are known
  have hz : ∀ n, n ≤ h.vaddr + h.memsz - a →
      max (if tc > n then tc - n else 0) (if size - n ≠ 0 ∧ a - h.vaddr + n < h.memsz then min (size - n) (h.memsz - (a - h.vaddr + n)) else 0) =
      max (tc - n) (min (size - n) (h.vaddr + h.memsz - (a + n))) := by
    intro n hn
    split <;> split <;> omega
  unfold readFromHdr
  rw [hoff]
  by_cases hf : a - h.vaddr < h.filesz
  · simp only
    rw [if_pos hf]
    have hmod : (h.offset + (a - h.vaddr)) % W64 = h.offset + (a - h.vaddr) := Nat.mod_eq_of_lt (by have := hlen.2; omega)
    have hrd := read_content io hio (h.offset + (a - h.vaddr)) (min (h.filesz - (a - h.vaddr)) size) (by omega) (by have := hlen.2; omega)
    rw [hmod, hrd, Res.bind_ok]
    have hl : ((io.content.drop (h.offset + (a - h.vaddr))).take (min (h.filesz - (a - h.vaddr)) size)).length =
        min (h.filesz - (a - h.vaddr)) size := by
      rw [List.length_take, List.length_drop, hlen.1]
      omega
    generalize hbs : (io.content.drop (h.offset + (a - h.vaddr))).take (min (h.filesz - (a - h.vaddr)) size) = bs at *
    rw [if_neg (by omega), Res.bind_ok]
    refine ⟨bs, ?_, by omega, ?_⟩
    · show Res.ok (bs, _) = _
      rw [hz bs.length (by omega)]
    · intro i b hi
      have hi' : i < bs.length := (List.getElem?_eq_some_iff.1 hi).1
      rw [← hbs, List.getElem?_take_of_lt (by omega), List.getElem?_drop] at hi
      rw [← hi]; congr 1; omega
  · simp only
    rw [if_neg hf, Res.bind_ok]
    refine ⟨[], ?_, by simp; omega, by simp⟩
    show Res.ok (([] : List Byte), _) = _
    have := hz 0 (by omega)
    simp only [List.length_nil] at this ⊢
    rw [this]

/-- The bytes from `a` on are right. -/
def Chunk (core : Option Obj) (m : Objects) (a : Nat) (bs : List Byte) : Prop := ∀ i b, bs[i]? = some b → ByteAt core m (a + i) b

theorem chunk_append {core : Option Obj} {m : Objects} {a : Nat} {xs ys : List Byte} (h : Chunk core m a xs)
    (h' : Chunk core m (a + xs.length) ys) : Chunk core m a (xs ++ ys) := by
  intro i b hi
  rcases Nat.lt_or_ge i xs.length with hlt | hge
  · rw [List.getElem?_append_left hlt] at hi; exact h i b hi
  · rw [List.getElem?_append_right hge] at hi
    have := h' _ b hi
    rwa [show a + xs.length + (i - xs.length) = a + i by omega] at this

/-- Where a core segment has no file data, nothing is saved. -/
theorem unsaved_of {o : Obj} (ho : SoundObj o) {s : Phdr} {a : Nat} (hs : LoadSeg o s) (hin : InSegment s a) (h : s.vaddr + s.filesz ≤ a) :
    ∀ b, ¬ Saved (some o) a b := by
  rintro b ⟨o', t, he, ht, h1, h2, _⟩
  simp only [Option.some.injEq] at he
  subst he
  have hz := (ho.sizes t ht).1
  have hg := ho.good.1 s hs.1 hs.2
  have hin2 := hin.2
  have := seg_unique ho hs ht hin ⟨h1, by omega⟩ (by omega)
  subst this
  omega

theorem coreRead_spec (core : Option Obj) (hcore : ∀ o, core = some o → SoundObj o) (m : Objects) (c : Memo) (hc : MemoOk core m c)
    (a size : Nat) (hpos : 0 < size) (h64 : a + size ≤ 2 ^ 64) :
    ∃ c' bs z, coreRead core c a size = .ok (c', bs, z) ∧ MemoOk core m c' ∧ bs.length ≤ size ∧ Chunk core m a bs ∧
      z ≤ size - bs.length ∧
      ((bs.length ≠ 0 ∧ z = 0) ∨ (0 < size - bs.length ∧ (∀ b, ¬ Saved core (a + bs.length) b) ∧
        (z = 0 → ¬ ∃ o s, core = some o ∧ LoadSeg o s ∧ InSegment s (a + bs.length)) ∧
        (z ≠ 0 → ∃ o s, core = some o ∧ LoadSeg o s ∧ InSegment s (a + bs.length) ∧ a + bs.length + z ≤ s.vaddr + s.memsz))) ∧
      (bs.length = 0 → z = 0 → ¬ ∃ o s, core = some o ∧ LoadSeg o s ∧ InSegment s a) := by
  cases core with
  | none =>
    refine ⟨c, [], 0, rfl, hc, by simp, by intro i b h; simp at h, by simp, .inr ⟨by simpa using hpos, ?_, ?_, by simp⟩, ?_⟩
    · rintro b ⟨o, s, h, _⟩; cases h
    · rintro - ⟨o, s, h, _⟩; cases h
    · rintro - - ⟨o, s, h, _⟩; cases h
  | some o =>
    have ho := hcore o rfl
    have hlk := lookup_ok o.phdrs o.loads ho.arranged ho.good c.core (fun s h => hc.2 o s rfl h) a (by omega)
    have hc' : MemoOk (some o) m { c with core := (getSegmentForAddress o.loads c.core a).1 } := by
      refine ⟨hc.1, ?_⟩
      intro o' s h1 h2
      simp only [Option.some.injEq] at h1
      subst h1
      exact hlk.1 s h2
    unfold coreRead
    simp only
    cases hr : (getSegmentForAddress o.loads c.core a).2 with
    | none =>
      have hno : ¬ ∃ o' s, some o = some o' ∧ LoadSeg o' s ∧ InSegment s a := by
        rintro ⟨o', s, h1, h2, h3⟩
        simp only [Option.some.injEq] at h1
        subst h1
        have := (hlk.2 s).2 ⟨(loads_iff ho s).2 h2, h3⟩
        rw [hr] at this; cases this
      refine ⟨_, [], 0, rfl, hc', by simp, by intro i b h; simp at h, by simp, .inr ⟨by simpa using hpos, ?_, fun _ => hno, by simp⟩,
        fun _ _ => hno⟩
      rintro b ⟨o', s, h1, h2, h3, h4, _⟩
      simp only [Option.some.injEq] at h1
      subst h1
      have := (ho.sizes s h2).1
      exact hno ⟨o, s, rfl, h2, h3, by omega⟩
    | some s =>
      obtain ⟨hs1, hs2⟩ := (hlk.2 s).1 hr
      have hs := (loads_iff ho s).1 hs1
      obtain ⟨hz1, hz2⟩ := ho.sizes s hs
      obtain ⟨hg1, hg2⟩ := ho.good.1 s hs.1 hs.2
      obtain ⟨bs, e1, e2, e3⟩ := readFromHdr_spec o.io ho.io s hz1 hz2 a size 0 hg2 hs2.1 hs2.2
      simp only
      rw [e1, Res.bind_ok]
      obtain ⟨hs3, hs4⟩ := hs2
      refine ⟨_, bs, _, rfl, hc', by omega, ?_, by omega, ?_, ?_⟩
      · intro i b hi
        have hi' : i < bs.length := (List.getElem?_eq_some_iff.1 hi).1
        exact .saved ⟨o, s, rfl, hs, by omega, by omega, e3 i b hi⟩
      · by_cases hz : max (0 - bs.length) (min (size - bs.length) (s.vaddr + s.memsz - (a + bs.length))) = 0
        · rw [hz]
          exact .inl ⟨by omega, rfl⟩
        · right
          have hin : InSegment s (a + bs.length) := ⟨by omega, by omega⟩
          refine ⟨by omega, unsaved_of ho hs hin (by omega), fun h => absurd h hz, fun _ => ⟨o, s, rfl, hs, hin, by omega⟩⟩
      · intro h1 h2; omega

theorem objRead_spec (core : Option Obj) (m : Objects) (hm : SoundObjects m) (hk : Compatible core m) (c : Memo)
    (hc : MemoOk core m c) (a size z : Nat) (hpos : 0 < size) (h64 : a + size ≤ 2 ^ 64) (hz : z ≤ size)
    (hu : ∀ b, ¬ Saved core a b) (hz0 : z = 0 → ¬ ∃ o s, core = some o ∧ LoadSeg o s ∧ InSegment s a)
    (hz1 : z ≠ 0 → ∃ o s, core = some o ∧ LoadSeg o s ∧ InSegment s a ∧ a + z ≤ s.vaddr + s.memsz)
    (hcore : ∀ o, core = some o → SoundObj o) :
    ∃ c' bs more, objRead m c a size z = .ok (c', bs, more) ∧ MemoOk core m c' ∧ bs.length ≤ size ∧ Chunk core m a bs ∧
      (more = false → bs = [] ∧ ¬ Known core m a) ∧ (more = true → 0 < bs.length) := by
  have hfirst : ∀ o s, ¬ MappedAt m a o s a := by
    intro o s h
    obtain ⟨b, hb⟩ := hk.first_saved a o s h
    exact hu b hb
  obtain ⟨c', r, h1, h2, h3⟩ := findSegment_spec core m hm c hc a (by omega) hfirst
  -- everything in the rest of a core segment that holds `a` is unsaved
  have hcu : ∀ y o s, core = some o → LoadSeg o s → InSegment s a → a ≤ y → InSegment s y → ∀ b, ¬ Saved core y b := by
    intro y o s ho hs hin hy hin'
    rcases Nat.lt_or_ge a (s.vaddr + s.filesz) with hlt | hge
    · exfalso
      have hso := hcore o ho
      have hlen := (content_length _ hso.io).1
      have hz2 := (hso.sizes s hs).2
      obtain ⟨hin1, hin2⟩ := hin
      have hlt' : s.offset + (a - s.vaddr) < o.io.content.length := by omega
      exact hu _ ⟨o, s, ho, hs, hin1, hlt, List.getElem?_eq_getElem hlt'⟩
    · subst ho
      exact unsaved_of (hcore o rfl) hs hin' (by omega)
  unfold objRead
  rw [h1, Res.bind_ok]
  cases r with
  | none =>
    have hnone : ∀ base o s, ¬ MappedAt m base o s a := by
      intro base o s h
      have := (h3 base o s).2 h; cases this
    refine ⟨c', List.replicate z 0#8, (z != 0), rfl, h2, by simpa using hz, ?_, ?_, ?_⟩
    · intro i b hi
      have hi' : i < z := by simpa using (List.getElem?_eq_some_iff.1 hi).1
      rw [List.getElem?_replicate, if_pos hi'] at hi
      simp only [Option.some.injEq] at hi
      subst hi
      obtain ⟨o, s, ho, hs, hin, hle⟩ := hz1 (by omega)
      have hin' : InSegment s (a + i) := ⟨by have := hin.1; omega, by omega⟩
      refine .zero (hcu _ o s ho hs hin (by omega) hin') ?_ (.inl ⟨o, s, ho, hs, hin'⟩)
      intro base o' s' b' hf
      obtain ⟨b2, hf2⟩ := hk.file_first o s base o' s' a (a + i) b' ho hs hin hin' (by omega) hu
        (hcu _ o s ho hs hin (by omega) hin') hf
      exact hnone _ _ _ hf2.1
    · intro hmore
      simp only [bne_eq_false_iff_eq] at hmore
      subst hmore
      refine ⟨rfl, ?_⟩
      rintro (h | ⟨base, o, s, h⟩)
      · exact hz0 rfl h
      · exact hnone _ _ _ h
    · intro hmore
      simp only [bne_iff_ne, ne_eq] at hmore
      simp only [List.length_replicate]; omega
  | some t =>
    obtain ⟨base, o, s⟩ := t
    have hmap := (h3 base o s).1 rfl
    obtain ⟨g1, g2, g3, g4⟩ := hmap
    have hso := (hm.sound base o g1).1
    obtain ⟨q1, q2⟩ := hso.sizes s g2
    have q3 := hm.fits base o s g1 g2
    obtain ⟨bs, e1, e2, e3⟩ := readFromHdr_spec o.io hso.io s q1 q2 (a - base) size z (by omega) (by omega) (by omega)
    simp only
    rw [e1, Res.bind_ok]
    generalize hZ : max (z - bs.length) (min (size - bs.length) (s.vaddr + s.memsz - (a - base + bs.length))) = Z at *
    -- what lies in the rest of the segment is unsaved
    have hsu : ∀ y, a ≤ y → y < base + s.vaddr + s.memsz → ∀ b, ¬ Saved core y b := by
      intro y hy hy' b hb
      obtain ⟨b', hb'⟩ := hk.saved_first base o s a y b ⟨g1, g2, g3, g4⟩ ⟨g1, g2, by omega, hy'⟩ hy hb
      exact hu b' hb'
    refine ⟨c', bs ++ List.replicate Z 0#8, true, rfl, h2, ?_, ?_, (fun h => by cases h), ?_⟩
    · simp only [List.length_append, List.length_replicate]; omega
    · apply chunk_append
      · intro i b hi
        have hi' : i < bs.length := (List.getElem?_eq_some_iff.1 hi).1
        refine .file (hsu _ (by omega) (by omega)) (base := base) (o := o) (s := s) ⟨⟨g1, g2, by omega, by omega⟩, by omega, ?_⟩
        rw [← e3 i b hi]; congr 1; omega
      · intro i b hi
        have hi' : i < Z := by simpa using (List.getElem?_eq_some_iff.1 hi).1
        rw [List.getElem?_replicate, if_pos hi'] at hi
        simp only [Option.some.injEq] at hi
        subst hi
        rcases Nat.lt_or_ge (a + bs.length + i) (base + s.vaddr + s.memsz) with hlt | hge
        · have hmy : MappedAt m base o s (a + bs.length + i) := ⟨g1, g2, by omega, hlt⟩
          refine .zero (hsu _ (by omega) hlt) ?_ (.inr ⟨base, o, s, hmy⟩)
          rintro base' o' s' b' ⟨w1, w2, w3⟩
          obtain ⟨rfl, rfl, rfl⟩ := mapped_unique hm hmy w1
          omega
        · obtain ⟨co, cs, ho, hs, hin, hle⟩ := hz1 (by omega)
          have hin' : InSegment cs (a + bs.length + i) := ⟨by have := hin.1; omega, by omega⟩
          have hun := hcu _ co cs ho hs hin (by omega) hin'
          refine .zero hun ?_ (.inl ⟨co, cs, ho, hs, hin'⟩)
          intro base' o' s' b' hf
          obtain ⟨b2, hf2⟩ := hk.file_first co cs base' o' s' a (a + bs.length + i) b' ho hs hin hin' (by omega) hu hun hf
          obtain ⟨rfl, rfl, rfl⟩ := mapped_unique hm ⟨g1, g2, g3, g4⟩ hf2.1
          have := hf.1.2.2.2
          omega
    · intro _
      simp only [List.length_append, List.length_replicate]; omega

theorem read_spec (core : Option Obj) (hcore : ∀ o, core = some o → SoundObj o) (m : Objects) (hm : SoundObjects m)
    (hk : Compatible core m) : ∀ fuel size a c, size < fuel → a + size ≤ 2 ^ 64 → MemoOk core m c →
    ∃ c' bs, Core.read core m fuel c a size = some (.ok (c', bs)) ∧ MemoOk core m c' ∧ bs.length ≤ size ∧ Chunk core m a bs ∧
      (bs.length < size → ¬ Known core m (a + bs.length)) := by
  intro fuel
  induction fuel with
  | zero => intro size a c h; omega
  | succ fuel ih =>
    intro size a c hf h64 hc
    cases size with
    | zero => exact ⟨c, [], by simp [Core.read], hc, by simp, by intro i b h; simp at h, by simp⟩
    | succ n =>
      -- continuing after `k` bytes
      have hgo : ∀ (x : List Byte) (c1 : Memo) (a1 : Nat), 0 < x.length → x.length ≤ n + 1 → a1 = a + x.length → Chunk core m a x → MemoOk core m c1 →
          ∃ c' bs, (Core.read core m fuel c1 (a1 % W64) (n + 1 - x.length)).map (fun r => (do
              let (c, rest) ← r
              return (c, x ++ rest) : Res (Memo × List Byte))) = some (.ok (c', bs)) ∧
            MemoOk core m c' ∧ bs.length ≤ n + 1 ∧ Chunk core m a bs ∧ (bs.length < n + 1 → ¬ Known core m (a + bs.length)) := by
        intro x c1 a1 hx1 hx2 ha1 hx3 hc1
        subst ha1
        by_cases hend : a + x.length < 2 ^ 64
        · rw [Nat.mod_eq_of_lt (by rw [W64_eq]; omega)]
          obtain ⟨c', bs, h1, h2, h3, h4, h5⟩ := ih (n + 1 - x.length) (a + x.length) c1 (by omega) (by omega) hc1
          refine ⟨c', x ++ bs, by rw [h1]; rfl, h2, by simp; omega, chunk_append hx3 h4, ?_⟩
          intro hl
          simp only [List.length_append] at hl ⊢
          rw [← Nat.add_assoc]
          exact h5 (by omega)
        · have : n + 1 - x.length = 0 := by omega
          rw [this]
          refine ⟨c1, x, ?_, hc1, hx2, hx3, by omega⟩
          have hr : ∀ y, Core.read core m fuel c1 y 0 = some (.ok (c1, [])) := by intro y; cases fuel <;> simp [Core.read]
          rw [hr]
          simp
      obtain ⟨c1, b1, z, h1, h2, h3, h4, h5, h6, h7⟩ := coreRead_spec core hcore m c hc a (n + 1) (by omega) h64
      rw [Core.read]
      case x_4 => intro h; cases h
      rw [h1]
      simp only
      by_cases hcont : b1.length ≠ 0 ∧ z = 0
      · rw [if_pos hcont]
        exact hgo b1 c1 _ (by omega) h3 rfl h4 h2
      · rw [if_neg hcont]
        rcases h6 with h6 | ⟨g1, g2, g3, g4⟩
        · exact absurd h6 hcont
        · rw [Nat.mod_eq_of_lt (a := a + b1.length) (by rw [W64_eq]; omega)]
          obtain ⟨c2, b2, more, k1, k2, k3, k4, k5, k6⟩ := objRead_spec core m hm hk c1 h2 (a + b1.length) (n + 1 - b1.length) z g1
            (by omega) h5 g2 g3 g4 hcore
          rw [k1]
          simp only
          cases more with
          | false =>
            obtain ⟨rfl, hnk⟩ := k5 rfl
            simp only [Bool.false_eq_true, if_false]
            refine ⟨c2, b1 ++ [], rfl, k2, by simpa using h3, chunk_append h4 k4, ?_⟩
            intro _
            simpa using hnk
          | true =>
            have hp := k6 rfl
            simp only [if_true]
            have := hgo (b1 ++ b2) c2 (a + b1.length + b2.length) (by simp; omega) (by simp; omega) (by simp; omega)
              (chunk_append h4 k4) k2
            simp only [List.length_append] at this
            rw [show n + 1 - b1.length - b2.length = n + 1 - (b1.length + b2.length) by omega]
            exact this

end Pstack.Proof
