import Verif.Proof.Core
/-
C36: from an address to the mapped object. C33: memory of a dead process.
-/
namespace Pstack.Props
open Pstack.Reader Pstack.Elf Pstack.Core Pstack.Spec Pstack.Proof

/-! ## What earlier calls leave behind -/

/-- The remembered segments after some history of lookups and reads. -/
inductive Reached (core : Option Obj) (m : Objects) : Memo → Prop
  | init : Reached core m Memo.init
  | find {c c' : Memo} {a : Nat} {r : Option (Nat × Obj × Phdr)} (h : Reached core m c) (hf : findSegment m c a = .ok (c', r)) :
      Reached core m c'
  | read {c c' : Memo} {fuel a size : Nat} {bs : List Byte} (h : Reached core m c)
      (hr : Core.read core m fuel c a size = some (.ok (c', bs))) : Reached core m c'

theorem segment_member (hdrs : List Phdr) (last : Option Phdr) (a : Nat) (hl : ∀ s, last = some s → s ∈ hdrs) :
    ∀ s, (getSegmentForAddress hdrs last a).1 = some s → s ∈ hdrs := by
  have hs : ∀ r : Option Phdr × Option Phdr, r = (match hdrs[Search.lowerBound (endsBefore a) hdrs]? with
      | some pos => if pos.vaddr ≤ a then (some pos, some pos) else (last, none)
      | none => (last, none)) → ∀ s, r.1 = some s → s ∈ hdrs := by
    intro r hr s h
    cases hp : hdrs[Search.lowerBound (endsBefore a) hdrs]? with
    | none => rw [hp] at hr; subst hr; exact hl s h
    | some pos =>
      rw [hp] at hr
      simp only at hr
      split at hr
      · subst hr
        simp only [Option.some.injEq] at h
        subst h
        exact List.mem_of_getElem? hp
      · subst hr; exact hl s h
  intro s h
  unfold getSegmentForAddress at h
  cases last with
  | none => exact hs _ rfl s h
  | some l =>
    simp only at h
    split at h
    · exact hl s h
    · exact hs _ rfl s h

theorem find_memo (core : Option Obj) (m : Objects) (hm : OMap.Sorted m) (c c' : Memo) (a : Nat) (r : Option (Nat × Obj × Phdr))
    (hc : MemoOk core m c) (h : findSegment m c a = .ok (c', r)) : MemoOk core m c' := by
  unfold findSegment at h
  split at h
  · simp only [Res.ok.injEq, Prod.mk.injEq] at h; rw [← h.1]; exact hc
  · simp only [Res.ok.injEq, Prod.mk.injEq] at h; rw [← h.1]; exact hc
  · rename_i base o hl
    obtain ⟨e, he, h⟩ := Res.bind_eq_ok.1 h
    have hmem := (OMap.below_last hm hl).1
    split at h
    · have hc' : MemoOk core m { c with objs := fun b => if b = base then (getSegmentForAddress o.loads (c.objs base) (a - base)).1 else c.objs b } := by
        refine ⟨?_, hc.2⟩
        intro b o' s g1 g2
        simp only at g2
        split at g2
        · rename_i hb
          subst hb
          have := OMap.sorted_inj hm hmem g1 rfl
          simp only [Prod.mk.injEq, Option.some.injEq, true_and] at this
          subst this
          exact segment_member _ _ _ (fun s h => hc.1 b o s hmem h) s g2
        · exact hc.1 b o' s g1 g2
      simp only at h
      split at h
      · simp only [Res.pure_eq, Res.ok.injEq, Prod.mk.injEq] at h; rw [← h.1]; exact hc'
      · simp only [Res.pure_eq, Res.ok.injEq, Prod.mk.injEq] at h; rw [← h.1]; exact hc'
    · simp only [Res.pure_eq, Res.ok.injEq, Prod.mk.injEq] at h; rw [← h.1]; exact hc

theorem read_memo (core : Option Obj) (m : Objects) (hm : OMap.Sorted m) : ∀ (fuel : Nat) (c c' : Memo) (a size : Nat) (bs : List Byte),
    MemoOk core m c → Core.read core m fuel c a size = some (.ok (c', bs)) → MemoOk core m c' := by
  intro fuel
  induction fuel with
  | zero =>
    intro c c' a size bs hc h
    cases size with
    | zero =>
      simp only [Core.read, Option.some.injEq, Res.ok.injEq, Prod.mk.injEq] at h; rw [← h.1]; exact hc
    | succ n => simp [Core.read] at h
  | succ fuel ih =>
    intro c c' a size bs hc h
    cases size with
    | zero =>
      simp only [Core.read, Option.some.injEq, Res.ok.injEq, Prod.mk.injEq] at h; rw [← h.1]; exact hc
    | succ n =>
      have hgo : ∀ (c1 : Memo) (a1 size1 : Nat) (x : List Byte), MemoOk core m c1 →
          (Core.read core m fuel c1 a1 size1).map (fun r => (do
              let (c, rest) ← r
              return (c, x ++ rest) : Res (Memo × List Byte))) = some (.ok (c', bs)) → MemoOk core m c' := by
        intro c1 a1 size1 x hc1 h1
        rw [Option.map_eq_some_iff] at h1
        obtain ⟨r, hr1, hr2⟩ := h1
        obtain ⟨⟨c2, rest⟩, hr3, hr4⟩ := Res.bind_eq_ok.1 hr2
        simp only [Res.pure_eq, Res.ok.injEq, Prod.mk.injEq] at hr4
        rw [← hr4.1]
        exact ih c1 c2 a1 size1 rest hc1 (by rw [hr1, hr3])
      rw [Core.read] at h
      case x_4 => intro h; cases h
      cases hcr : coreRead core c a (n + 1) with
      | exc => rw [hcr] at h; simp at h
      | ub => rw [hcr] at h; simp at h
      | abort => rw [hcr] at h; simp at h
      | ok t =>
        obtain ⟨c1, b1, z⟩ := t
        have hc1 : MemoOk core m c1 := by
          unfold coreRead at hcr
          cases core with
          | none => simp only [Res.ok.injEq, Prod.mk.injEq] at hcr; rw [← hcr.1]; exact hc
          | some o =>
            have hk : MemoOk (some o) m { c with core := (getSegmentForAddress o.loads c.core a).1 } := by
              refine ⟨hc.1, ?_⟩
              intro o' s h1 h2
              simp only [Option.some.injEq] at h1
              subst h1
              exact segment_member _ _ _ (fun s h => hc.2 o s rfl h) s h2
            simp only at hcr
            split at hcr
            · simp only [Res.ok.injEq, Prod.mk.injEq] at hcr; rw [← hcr.1]; exact hk
            · obtain ⟨x, _, hx⟩ := Res.bind_eq_ok.1 hcr
              simp only [Res.pure_eq, Res.ok.injEq, Prod.mk.injEq] at hx; rw [← hx.1]; exact hk
        rw [hcr] at h
        simp only at h
        split at h
        · exact hgo _ _ _ _ hc1 h
        · split at h
          · rename_i c2 b2 more hor
            have hc2 : MemoOk core m c2 := by
              unfold objRead at hor
              obtain ⟨⟨c3, f⟩, h1, h2⟩ := Res.bind_eq_ok.1 hor
              have h3 := find_memo core m hm c1 c3 _ f hc1 h1
              cases f with
              | none => simp only [Res.pure_eq, Res.ok.injEq, Prod.mk.injEq] at h2; rw [← h2.1]; exact h3
              | some t =>
                obtain ⟨x, _, hx⟩ := Res.bind_eq_ok.1 h2
                simp only [Res.pure_eq, Res.ok.injEq, Prod.mk.injEq] at hx; rw [← hx.1]; exact h3
            split at h
            · exact hgo _ _ _ _ hc2 h
            · simp only [Option.some.injEq, Res.ok.injEq, Prod.mk.injEq] at h; rw [← h.1]; exact hc2
          · simp at h
          · simp at h
          · simp at h

theorem reached_ok (core : Option Obj) (m : Objects) (hm : OMap.Sorted m) (c : Memo) (h : Reached core m c) : MemoOk core m c := by
  induction h with
  | init => exact memoOk_init core m
  | find _ hf ih => exact find_memo core m hm _ _ _ _ ih hf
  | read _ hr ih => exact read_memo core m hm _ _ _ _ _ _ ih hr

/-! ## C36 -/

/-- The process's objects after adding some at their load addresses. -/
def added (adds : List (Nat × Option Obj)) : Objects := adds.foldl (fun m e => addElfObject m e.1 e.2) []

/-- C36. The objects known to the process are those added, in order of load address; of several added at one address, the first. -/
theorem C36_objects (adds : List (Nat × Option Obj)) :
    OMap.Sorted (added adds) ∧ ∀ k v, (k, v) ∈ added adds ↔ ∃ pre post, adds = pre ++ (k, v) :: post ∧ ∀ e ∈ pre, e.1 ≠ k := by
  unfold added
  suffices h : ∀ (adds : List (Nat × Option Obj)) (m : Objects), OMap.Sorted m →
      OMap.Sorted (adds.foldl (fun m e => addElfObject m e.1 e.2) m) ∧
      ∀ k v, (k, v) ∈ adds.foldl (fun m e => addElfObject m e.1 e.2) m ↔
        (k, v) ∈ m ∨ ((∀ e ∈ m, e.1 ≠ k) ∧ ∃ pre post, adds = pre ++ (k, v) :: post ∧ ∀ e ∈ pre, e.1 ≠ k) by
    obtain ⟨h1, h2⟩ := h adds [] List.Pairwise.nil
    refine ⟨h1, fun k v => ?_⟩
    rw [h2]
    simp
  intro adds
  induction adds with
  | nil => intro m hm; exact ⟨hm, by simp⟩
  | cons a adds ih =>
    intro m hm
    obtain ⟨ka, va⟩ := a
    rw [List.foldl_cons]
    obtain ⟨h1, h2⟩ := ih (addElfObject m ka va) (OMap.sorted_emplace hm)
    refine ⟨h1, fun k v => ?_⟩
    rw [h2]
    unfold addElfObject at *
    constructor
    · rintro (h | ⟨h3, pre, post, h4, h5⟩)
      · rcases OMap.mem_emplace h with h3 | h3
        · simp only [Prod.mk.injEq] at h3
          obtain ⟨rfl, rfl⟩ := h3
          by_cases hk : ∀ e ∈ m, e.1 ≠ k
          · exact .inr ⟨hk, [], adds, rfl, by simp⟩
          · left
            simp only [ne_eq, Classical.not_forall, Classical.not_not] at hk
            obtain ⟨e, he, hek⟩ := hk
            have := OMap.sorted_inj (OMap.sorted_emplace hm) h (OMap.mem_emplace_of_mem he) hek.symm
            rw [this]; exact he
        · exact .inl h3
      · obtain ⟨e, he1, he2⟩ := OMap.key_emplace ka va m
        have hne : ka ≠ k := by rw [← he2]; exact h3 e he1
        refine .inr ⟨fun e he => h3 e (OMap.mem_emplace_of_mem he), (ka, va) :: pre, post, by rw [h4]; rfl, ?_⟩
        intro e he
        rcases List.mem_cons.1 he with rfl | he
        · exact hne
        · exact h5 e he
    · rintro (h | ⟨h3, pre, post, h4, h5⟩)
      · exact .inl (OMap.mem_emplace_of_mem h)
      · cases pre with
        | nil =>
          simp only [List.nil_append, List.cons.injEq, Prod.mk.injEq] at h4
          obtain ⟨⟨rfl, rfl⟩, rfl⟩ := h4
          exact .inl (OMap.emplace_new h3)
        | cons p pre =>
          simp only [List.cons_append, List.cons.injEq] at h4
          obtain ⟨rfl, rfl⟩ := h4
          have hp := h5 (ka, va) (by simp)
          refine .inr ⟨?_, pre, post, rfl, fun e he => h5 e (by simp [he])⟩
          intro e he
          rcases OMap.mem_emplace he with rfl | he
          · exact hp
          · exact h3 e he

/-- C36. In a process whose objects do not interleave, after any history, looking up an address that is not the load address of an
object beginning there finds exactly the object and segment that occupy it. -/
theorem C36_find_segment_partial (core : Option Obj) (m : Objects) (hm : SoundObjects m) (c : Memo) (hc : Reached core m c) (a : Nat)
    (ha : a < 2 ^ 64) (hfirst : ∀ o s, ¬ MappedAt m a o s a) :
    ∃ c' r, findSegment m c a = .ok (c', r) ∧
      ∀ base o s, r = some (base, o, s) ↔
        (base, some o) ∈ m ∧ (s ∈ o.phdrs ∧ s.type = 1) ∧ base + s.vaddr ≤ a ∧ a < base + s.vaddr + s.memsz := by
  obtain ⟨c', r, h1, _, h3⟩ := findSegment_spec core m hm c (reached_ok core m hm.sorted c hc) a ha hfirst
  exact ⟨c', r, h1, h3⟩

/-- C36 fails for the first byte of every object whose first segment starts at its load address: it is never found there. -/
theorem C36_not_first_byte (m : Objects) (hs : OMap.Sorted m) (c c' : Memo) (base : Nat) (o : Obj) (s : Phdr) :
    findSegment m c base ≠ .ok (c', some (base, o, s)) := by
  intro h
  unfold findSegment at h
  split at h
  · simp at h
  · simp at h
  · rename_i base' o' hl
    obtain ⟨_, hlt, _⟩ := OMap.below_last hs hl
    simp only at hlt
    obtain ⟨e, he, h⟩ := Res.bind_eq_ok.1 h
    split at h
    · simp only at h
      split at h
      · simp only [Res.pure_eq, Res.ok.injEq, Prod.mk.injEq, Option.some.injEq] at h
        omega
      · simp at h
    · simp at h

/-- A library: text [0, 0x10) from its file, and data at [0x20, 0x28), the last four bytes of which are not in the file. -/
def C36_lib : Obj :=
  { io := .file ((List.range 20).map (fun i => BitVec.ofNat 8 (i + 1))),
    phdrs := [⟨1, 5, 0, 0, 0, 0x10, 0x10, 0⟩, ⟨1, 6, 0x10, 0x20, 0, 4, 8, 0⟩],
    loads := [⟨1, 5, 0, 0, 0, 0x10, 0x10, 0⟩, ⟨1, 6, 0x10, 0x20, 0, 4, 8, 0⟩] }

theorem C36_lib_sound : SoundObj C36_lib := by
  refine ⟨by simp only [C36_lib, Rdr.WF]; decide +kernel, ⟨by decide, by decide⟩, ⟨by decide, ?_⟩, ?_⟩
  · have e : C36_lib.phdrs.filter (fun p => p.type == 1) = [⟨1, 5, 0, 0, 0, 0x10, 0x10, 0⟩, ⟨1, 6, 0x10, 0x20, 0, 4, 8, 0⟩] := rfl
    rw [e]
    simp only [List.pairwise_cons, List.mem_cons, List.not_mem_nil, or_false, forall_eq, InSegment]
    refine ⟨?_, ?_, List.Pairwise.nil⟩
    · intro a; omega
    · intro a h; exact h.elim
  · rintro s ⟨h1, _⟩
    have hsz : C36_lib.io.size = 20 := by decide +kernel
    rw [hsz]
    simp only [C36_lib, List.mem_cons, List.not_mem_nil, or_false] at h1
    rcases h1 with rfl | rfl <;> decide

/-- The library at 0x1000 and a missing file at 0x2000. -/
def C36_map : Objects := added [(0x2000, none), (0x1000, some C36_lib), (0x1000, none)]

theorem C36_map_eq : C36_map = [(0x1000, some C36_lib), (0x2000, none)] := rfl

theorem C36_map_sound : SoundObjects C36_map := by
  rw [C36_map_eq]
  have hseg : ∀ s, LoadSeg C36_lib s → s = ⟨1, 5, 0, 0, 0, 0x10, 0x10, 0⟩ ∨ s = ⟨1, 6, 0x10, 0x20, 0, 4, 8, 0⟩ := by
    rintro s ⟨h, _⟩
    simpa [C36_lib] using h
  have hmem : ∀ base o, (base, some o) ∈ ([(0x1000, some C36_lib), (0x2000, none)] : Objects) → base = 0x1000 ∧ o = C36_lib := by
    intro base o h
    simpa using h
  refine ⟨by simp [OMap.Sorted], ?_, ?_, ?_⟩
  · intro base o h
    obtain ⟨rfl, rfl⟩ := hmem _ _ h
    exact ⟨C36_lib_sound, ⟨1, 5, 0, 0, 0, 0x10, 0x10, 0⟩, by simp [C36_lib], rfl⟩
  · intro base o s h hs
    obtain ⟨rfl, rfl⟩ := hmem _ _ h
    rcases hseg s hs with rfl | rfl <;> decide
  · intro base o s base' o' h h' hlt hs
    obtain ⟨rfl, rfl⟩ := hmem _ _ h
    have : base' = 0x2000 := by
      simp only [List.mem_cons, List.not_mem_nil, or_false, Prod.mk.injEq] at h'
      rcases h' with ⟨rfl, _⟩ | ⟨rfl, _⟩
      · omega
      · rfl
    subst this
    rcases hseg s hs with rfl | rfl <;> decide

/-- Lookups in it: in the text, in the gap, at the load address. -/
theorem C36_example :
    (findSegment C36_map Memo.init 0x1001).toOption.map (·.2.map (·.1)) = some (some 0x1000) ∧
    (findSegment C36_map Memo.init 0x1010).toOption.map (·.2.map (·.1)) = some none ∧
    (findSegment C36_map Memo.init 0x1000).toOption.map (·.2.map (·.1)) = some none := by
  refine ⟨?_, ?_, ?_⟩ <;> decide +kernel

/-! ## C33 -/

/-- C33. For every core and every set of mapped objects that overlap compatibly, after any history of reads and lookups, a read of
`size` bytes at `a` ends and returns for each address the byte saved in the core, else the byte of the mapped object's file, else
zero if the address is in any segment; it is short only if the next address is in no segment. -/
theorem C33_core_read_partial (core : Option Obj) (hcore : ∀ o, core = some o → SoundObj o) (m : Objects) (hm : SoundObjects m)
    (hk : Compatible core m) (c : Memo) (hc : Reached core m c) (a size : Nat) (h64 : a + size ≤ 2 ^ 64) (fuel : Nat) (hf : size < fuel) :
    ∃ c' bs, Core.read core m fuel c a size = some (.ok (c', bs)) ∧ bs.length ≤ size ∧
      (∀ i b, bs[i]? = some b → ByteAt core m (a + i) b) ∧ (bs.length < size → ¬ Known core m (a + bs.length)) := by
  obtain ⟨c', bs, h1, _, h3, h4, h5⟩ := read_spec core hcore m hm hk fuel size a c hf h64 (reached_ok core m hm.sorted c hc)
  exact ⟨c', bs, h1, h3, h4, h5⟩

/-- Memory is well defined: at most one value for each address. -/
theorem C33_byte_unique (core : Option Obj) (hcore : ∀ o, core = some o → SoundObj o) (m : Objects) (hm : SoundObjects m) (a : Nat)
    (b b' : Byte) (h : ByteAt core m a b) (h' : ByteAt core m a b') : b = b' := by
  have hsv : ∀ b b', Saved core a b → Saved core a b' → b = b' := by
    rintro b b' ⟨o, s, rfl, h1, h2, h3, h4⟩ ⟨o', s', he, g1, g2, g3, g4⟩
    simp only [Option.some.injEq] at he
    subst he
    have ho := hcore o rfl
    have := (ho.sizes s h1).1
    have := (ho.sizes s' g1).1
    have := ho.good.1 s h1.1 h1.2
    have := seg_unique ho h1 g1 (a := a) ⟨h2, by omega⟩ ⟨g2, by omega⟩ (by omega)
    subst this
    rw [h4] at g4
    exact Option.some.inj g4
  cases h with
  | saved h =>
    cases h' with
    | saved g => exact hsv _ _ h g
    | file g _ => exact absurd h (g _)
    | zero g _ _ => exact absurd h (g _)
  | file h hf =>
    cases h' with
    | saved g => exact absurd g (h _)
    | file _ gf =>
      obtain ⟨rfl, rfl, rfl⟩ := mapped_unique hm hf.1 gf.1
      have h1 := hf.2.2
      rw [gf.2.2] at h1
      exact (Option.some.inj h1).symm
    | zero _ gf _ => exact absurd hf (gf _ _ _ _)
  | zero h hf _ =>
    cases h' with
    | saved g => exact absurd g (h _)
    | file _ gf => exact absurd gf (hf _ _ _ _)
    | zero _ _ _ => rfl

/-- A core with the library's first four bytes saved (changed), the rest of its text not saved; and a stack page of four saved bytes. -/
def C33_core : Obj :=
  { io := .file [0xaa#8, 0xab#8, 0xac#8, 0xad#8, 0xba#8, 0xbb#8, 0xbc#8, 0xbd#8],
    phdrs := [⟨1, 5, 0, 0x1000, 0, 4, 0x18, 0⟩, ⟨1, 6, 4, 0x3000, 0, 4, 4, 0⟩],
    loads := [⟨1, 5, 0, 0x1000, 0, 4, 0x18, 0⟩, ⟨1, 6, 4, 0x3000, 0, 4, 4, 0⟩] }

theorem C33_core_sound : SoundObj C33_core := by
  refine ⟨by simp only [C33_core, Rdr.WF]; decide +kernel, ⟨by decide, by decide⟩, ⟨by decide, ?_⟩, ?_⟩
  · have e : C33_core.phdrs.filter (fun p => p.type == 1) = [⟨1, 5, 0, 0x1000, 0, 4, 0x18, 0⟩, ⟨1, 6, 4, 0x3000, 0, 4, 4, 0⟩] := rfl
    rw [e]
    simp only [List.pairwise_cons, List.mem_cons, List.not_mem_nil, or_false, forall_eq, InSegment]
    refine ⟨?_, ?_, List.Pairwise.nil⟩
    · intro a; omega
    · intro a h; exact h.elim
  · rintro s ⟨h1, _⟩
    have hsz : C33_core.io.size = 8 := by decide +kernel
    rw [hsz]
    simp only [C33_core, List.mem_cons, List.not_mem_nil, or_false] at h1
    rcases h1 with rfl | rfl <;> decide

theorem C33_saved_iff (a : Nat) : (∃ b, Saved (some C33_core) a b) ↔ (0x1000 ≤ a ∧ a < 0x1004) ∨ (0x3000 ≤ a ∧ a < 0x3004) := by
  constructor
  · rintro ⟨b, o, s, he, ⟨h1, _⟩, h2, h3, _⟩
    simp only [Option.some.injEq] at he
    subst he
    simp only [C33_core, List.mem_cons, List.not_mem_nil, or_false] at h1
    rcases h1 with rfl | rfl
    · left; simp only at h2 h3; omega
    · right; simp only at h2 h3; omega
  · have hl : C33_core.io.content.length = 8 := by decide +kernel
    rintro (⟨h1, h2⟩ | ⟨h1, h2⟩)
    · exact ⟨_, C33_core, ⟨1, 5, 0, 0x1000, 0, 4, 0x18, 0⟩, rfl, ⟨by simp [C33_core], rfl⟩, h1, h2,
        List.getElem?_eq_getElem (by rw [hl]; show 0 + (a - 0x1000) < 8; omega)⟩
    · exact ⟨_, C33_core, ⟨1, 6, 4, 0x3000, 0, 4, 4, 0⟩, rfl, ⟨by simp [C33_core], rfl⟩, h1, h2,
        List.getElem?_eq_getElem (by rw [hl]; show 4 + (a - 0x3000) < 8; omega)⟩

theorem C33_mapped (base : Nat) (o : Obj) (s : Phdr) (a : Nat) (h : MappedAt C36_map base o s a) :
    base = 0x1000 ∧ o = C36_lib ∧ ((s = ⟨1, 5, 0, 0, 0, 0x10, 0x10, 0⟩ ∧ 0x1000 ≤ a ∧ a < 0x1010) ∨
      (s = ⟨1, 6, 0x10, 0x20, 0, 4, 8, 0⟩ ∧ 0x1020 ≤ a ∧ a < 0x1028)) := by
  obtain ⟨h1, ⟨h2, _⟩, h3, h4⟩ := h
  rw [C36_map_eq] at h1
  have : base = 0x1000 ∧ o = C36_lib := by simpa using h1
  obtain ⟨rfl, rfl⟩ := this
  refine ⟨rfl, rfl, ?_⟩
  simp only [C36_lib, List.mem_cons, List.not_mem_nil, or_false] at h2
  rcases h2 with rfl | rfl
  · left; simp only at h3 h4; exact ⟨rfl, by omega, by omega⟩
  · right; simp only at h3 h4; exact ⟨rfl, by omega, by omega⟩

/-- The hypotheses hold of it. -/
theorem C33_compatible : Compatible (some C33_core) C36_map := by
  constructor
  · intro base o s x y b hx hy hle hs
    have := (C33_saved_iff y).1 ⟨b, hs⟩
    obtain ⟨_, _, h⟩ := C33_mapped _ _ _ _ hx
    obtain ⟨_, _, h'⟩ := C33_mapped _ _ _ _ hy
    exact (C33_saved_iff x).2 (by omega)
  · intro co c base o s x y b hco hc hx hy hle hux huy hf
    simp only [Option.some.injEq] at hco
    subst hco
    have hux' : ¬ ((0x1000 ≤ x ∧ x < 0x1004) ∨ (0x3000 ≤ x ∧ x < 0x3004)) := by
      rw [← C33_saved_iff]; rintro ⟨b, hb⟩; exact hux b hb
    obtain ⟨rfl, rfl, h⟩ := C33_mapped _ _ _ _ hf.1
    have hcx : c = ⟨1, 5, 0, 0x1000, 0, 4, 0x18, 0⟩ ∨ c = ⟨1, 6, 4, 0x3000, 0, 4, 4, 0⟩ := by simpa [C33_core] using hc.1
    rcases hcx with rfl | rfl
    · unfold InSegment at hx hy
      simp only at hx hy
      rcases h with ⟨rfl, h1, h2⟩ | ⟨rfl, h1, h2⟩
      · have hl : C36_lib.io.content.length = 20 := by decide +kernel
        refine ⟨_, ⟨by rw [C36_map_eq]; simp, ⟨by simp [C36_lib], rfl⟩, by show 0x1000 + 0 ≤ x; omega, by show x < 0x1000 + 0 + 0x10; omega⟩,
          by show x < 0x1000 + 0 + 0x10; omega, List.getElem?_eq_getElem (by rw [hl]; show 0 + (x - (0x1000 + 0)) < 20; omega)⟩
      · omega
    · unfold InSegment at hx hy
      simp only at hx hy
      omega
  · intro base o s h
    obtain ⟨rfl, _, _⟩ := C33_mapped _ _ _ _ h
    exact (C33_saved_iff _).2 (by omega)

/-- Reading 32 bytes at 0x1000: four saved, twelve from the file, then the rest of the core's segment as zeros; 0x1018 is in no segment. -/
theorem C33_example : (Core.read (some C33_core) C36_map 33 Memo.init 0x1000 32).map (fun r => r.toOption.map (·.2)) =
    some (some ([0xaa#8, 0xab#8, 0xac#8, 0xad#8] ++ (List.range 12).map (fun i => BitVec.ofNat 8 (i + 5)) ++ List.replicate 8 0#8)) := by
  decide +kernel

/-- C33 fails for an object whose first byte, at its load address, is not saved in the core: the object is not found there, so
all of the core's unsaved segment reads as zeros, though the file has the bytes. -/
theorem C33_not_first_byte :
    FileByte C36_map 0x1000 C36_lib ⟨1, 5, 0, 0, 0, 0x10, 0x10, 0⟩ 0x1000 1#8 ∧
    let core : Obj := { io := .file [], phdrs := [⟨1, 5, 0, 0x1000, 0, 0, 0x10, 0⟩], loads := [⟨1, 5, 0, 0x1000, 0, 0, 0x10, 0⟩] }
    (∀ b, ¬ Saved (some core) 0x1000 b) ∧
    (Core.read (some core) C36_map 17 Memo.init 0x1000 16).map (fun r => r.toOption.map (·.2)) = some (some (List.replicate 16 0#8)) ∧
    (Core.read (some core) C36_map 17 Memo.init 0x1001 15).map (fun r => r.toOption.map (·.2)) =
      some (some ((List.range 15).map (fun i => BitVec.ofNat 8 (i + 2)))) := by
  refine ⟨⟨⟨by rw [C36_map_eq]; simp, ⟨by simp [C36_lib], rfl⟩, by decide, by decide⟩, by decide, by decide +kernel⟩, ?_, ?_, ?_⟩
  · rintro b ⟨o, s, he, ⟨h1, _⟩, h2, h3, _⟩
    simp only [Option.some.injEq] at he
    subst he
    simp only [List.mem_cons, List.not_mem_nil, or_false] at h1
    subst h1
    simp at h3
  · decide +kernel
  · decide +kernel

/-- C33 fails where saved memory follows unsaved memory in one segment of an object: a read that starts in the unsaved part takes
the file's bytes for all of it. Here 0x1008 is saved as 0xcc (a patched instruction) but reads as the file's 9. -/
theorem C33_not_patched :
    let core : Obj := { io := .file [0xcc#8], phdrs := [⟨1, 7, 0, 0x1008, 0, 1, 1, 0⟩], loads := [⟨1, 7, 0, 0x1008, 0, 1, 1, 0⟩] }
    Saved (some core) 0x1008 0xcc#8 ∧
    (Core.read (some core) C36_map 3 Memo.init 0x1007 2).map (fun r => r.toOption.map (·.2)) = some (some [8#8, 9#8]) ∧
    (Core.read (some core) C36_map 3 Memo.init 0x1008 1).map (fun r => r.toOption.map (·.2)) = some (some [0xcc#8]) := by
  refine ⟨⟨_, ⟨1, 7, 0, 0x1008, 0, 1, 1, 0⟩, rfl, ⟨by simp, rfl⟩, by decide, by decide, by decide +kernel⟩, ?_, ?_⟩
  · decide +kernel
  · decide +kernel

/-- C33 fails for a core that was cut short: reading the part of a segment that is there, together with the part that is not,
throws instead of returning a short count. -/
theorem C33_not_truncated :
    let core : Obj := { io := .file [1#8, 2#8, 3#8, 4#8], phdrs := [⟨1, 7, 0, 0x5000, 0, 8, 8, 0⟩], loads := [⟨1, 7, 0, 0x5000, 0, 8, 8, 0⟩] }
    (Core.read (some core) [] 9 Memo.init 0x5000 4).map (fun r => r.toOption.map (·.2)) = some (some [1#8, 2#8, 3#8, 4#8]) ∧
    (Core.read (some core) [] 9 Memo.init 0x5000 8).map (fun r => r.toOption.map (·.2)) = some none := by
  constructor
  · decide +kernel
  · decide +kernel

/-- An object with an empty loadable segment at 0 and one at [0x100, 0x110), mapped at 0x1000. -/
def C33_stuck : Obj :=
  { io := .file [], phdrs := [⟨1, 5, 0, 0, 0, 0, 0, 0⟩, ⟨1, 5, 0, 0x100, 0, 0, 0x10, 0⟩],
    loads := [⟨1, 5, 0, 0, 0, 0, 0, 0⟩, ⟨1, 5, 0, 0x100, 0, 0, 0x10, 0⟩] }

/-- C33 fails for an object with an empty segment at 0: it is found for addresses below the next segment but has nothing to give,
and the read goes round for ever. -/
theorem C33_not_terminating : ∀ fuel, Core.read none [(0x1000, some C33_stuck)] fuel Memo.init 0x1010 1 = none := by
  suffices h : ∀ fuel c, (c.objs 0x1000 = none ∨ c.objs 0x1000 = some ⟨1, 5, 0, 0, 0, 0, 0, 0⟩) →
      Core.read none [(0x1000, some C33_stuck)] fuel c 0x1010 1 = none from fun fuel => h fuel _ (.inl rfl)
  intro fuel
  induction fuel with
  | zero => intro c _; rfl
  | succ fuel ih =>
    intro c hc
    have hl : ∀ last, (last = none ∨ last = some ⟨1, 5, 0, 0, 0, 0, 0, 0⟩) →
        getSegmentForAddress C33_stuck.loads last 0x10 = (some ⟨1, 5, 0, 0, 0, 0, 0, 0⟩, some ⟨1, 5, 0, 0, 0, 0, 0, 0⟩) := by
      rintro last (rfl | rfl) <;> decide +kernel
    have hf : findSegment [(0x1000, some C33_stuck)] c 0x1010 =
        .ok ({ c with objs := fun b => if b = 0x1000 then some ⟨1, 5, 0, 0, 0, 0, 0, 0⟩ else c.objs b },
          some (0x1000, C33_stuck, ⟨1, 5, 0, 0, 0, 0, 0, 0⟩)) := by
      unfold findSegment
      have e1 : (OMap.below 0x1010 [(0x1000, some C33_stuck)]).getLast? = some (0x1000, some C33_stuck) := rfl
      have e2 : C33_stuck.endVA = .ok 0x110 := by decide +kernel
      have e3 : (0x1000 + 0x110) % W64 ≥ 0x1010 := by decide
      rw [e1]
      simp only
      rw [e2, Res.bind_ok, if_pos e3, hl _ hc]
      rfl
    have ho : objRead [(0x1000, some C33_stuck)] c 0x1010 1 0 =
        .ok ({ c with objs := fun b => if b = 0x1000 then some ⟨1, 5, 0, 0, 0, 0, 0, 0⟩ else c.objs b }, [], true) := by
      unfold objRead
      rw [hf, Res.bind_ok]
      rfl
    rw [Core.read]
    case x_4 => intro h; cases h
    have e : coreRead none c 0x1010 1 = .ok (c, [], 0) := rfl
    rw [e]
    simp only [List.length_nil, ne_eq, not_true_eq_false, false_and, if_false, Nat.add_zero]
    rw [show 4112 % W64 = 4112 from rfl, ho]
    simp only [if_true, List.length_nil, Nat.add_zero]
    rw [show 4112 % W64 = 4112 from rfl, show 1 - 0 - 0 = 1 from rfl, ih _ (.inr (by simp))]
    rfl

end Pstack.Props
