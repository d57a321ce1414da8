import Verif.Proof.HeapCalls
import Verif.Proof.HeapBig
/-
C37, C38, C60: the debugging heap (heap.c).
-/
namespace Pstack.Props
open Pstack.Heap Pstack.Spec

/-! ### C37: the accounts -/

/-- C37, programs with threads: at every point of every schedule the usage that is reported is the sum of the sizes of the blocks in use, and the maximum the largest value this ever had.
(Partial: `realloc` leaves a block that is to become smaller as it is, and it goes on to be counted with the size it had, see `C37_not_shrink`; the first calls, before the debugger is at
work, are not counted; the program has the memory it asks for.) -/
theorem C37_threads_partial {cfg : Config} {w : HeapWorld} (h : HeapRun cfg w) : w.s.total.toNat = usage w.evs ∧ w.s.maxmem.toNat = peak w.evs :=
  ⟨h.inv.total, h.inv.maxmem⟩

/-- C37, histories of calls of `malloc`, `aligned_alloc`, `calloc`, `realloc` and `free`, and of writes to blocks. -/
theorem C37_history_partial {cfg : Config} {s : St} {evs : List HeapEv} (h : HeapHist cfg s evs) : s.total.toNat = usage evs ∧ s.maxmem.toNat = peak evs :=
  ⟨h.inv.total, h.inv.maxmem⟩

/-- `realloc` to no more than there is changes nothing. -/
theorem C37_shrunk {cfg : Config} {s : St} {evs : List HeapEv} (h : HeapHist cfg s evs) {p n size fresh : Nat} {ans : Answer} (hp : (p, n) ∈ blocks evs) (hs : size ≤ n)
    (hr : Room s (16 + size + 4) ans fresh) {q : Nat} {s' : St} (hrun : realloc cfg p size ans fresh s = .ok (q, s')) : q = p ∧ s' = s := by
  rcases realloc_spec h.inv hp hr hrun with ⟨_, h1, h2⟩ | ⟨h1, _⟩
  · exact ⟨h1, h2⟩
  · omega

/-- The default settings. -/
def heapDefaults : Config := ⟨1, false, 1024, 262144, 4096, 0⟩

/-- An answer of the real allocator. -/
def answer (a : Nat) : Answer := ⟨a, fun _ => 0⟩

theorem legal_of {s : St} {a n : Nat} (h0 : a ≠ 0) (h1 : a + n < 2 ^ 64) (h : ∀ r ∈ s.real, r.1 + r.2 ≤ a ∨ a + n ≤ r.1) : Legal s (answer a) n := ⟨h0, h1, h⟩

/-- A block is taken from a new heap. -/
theorem take_first (cfg : Config) (hc : cfg.allocLimit = 0) (hf : cfg.doFill = false) (size : Nat) (hsz : size < 2 ^ 32) : ∃ s, malloc cfg size (answer 4096) 1 (St.empty (fun _ => 0)) = .ok (4112, s) ∧
    HeapHist cfg s [.take 4112 size] ∧ HInv cfg (still s [.take 4112 size]) := by
  have hroom : Room (St.empty (fun _ => 0)) (16 + size + 4) (answer 4096) 1 :=
    ⟨by omega, legal_of (by decide) (by omega) (fun _ h => nomatch h), ⟨by decide, by decide, rfl⟩⟩
  obtain ⟨s, hs⟩ := malloc_ok (inv_start cfg (fun _ => 0)) hf hc hroom
  refine ⟨s, hs, .step (c := .malloc size (answer 4096) 1) (q := 4112) (.start _) hroom ?_, (malloc_spec (inv_start cfg (fun _ => 0)) hroom hs).2.1⟩
  · simp only [HeapCall.run]
    rw [hs]; rfl

/-- A block of 100 bytes of which all but one are given up is counted as 100 bytes. -/
theorem C37_not_shrink : ∃ (s s' : St) (ans : Answer), HeapHist heapDefaults s [.take 4112 100] ∧ Room s (16 + 1 + 4) ans 2 ∧ realloc heapDefaults 4112 1 ans 2 s = .ok (4112, s') ∧ s'.total = 100 := by
  obtain ⟨s, hs, hh, hi⟩ := take_first heapDefaults rfl rfl 100 (by decide)
  have hroom : Room s (16 + 1 + 4) (answer 8192) 2 := by
    have e : s.real = [(4096, 120)] ∧ s.desc 2 = none := by
      have h1 : ((malloc heapDefaults 100 (answer 4096) 1 (St.empty (fun _ => 0))).bind (fun r => Res.ok (r.2.real, (r.2.desc 2).isNone))) = Res.ok ([(4096, 120)], true) := rfl
      rw [hs] at h1
      injection h1 with h1
      injection h1 with h1 h2
      exact ⟨h1, Option.isNone_iff_eq_none.1 h2⟩
    refine ⟨by decide, legal_of (by decide) (by decide) (fun r hr => ?_), ⟨by decide, by decide, e.2⟩⟩
    rw [e.1] at hr
    rcases List.mem_cons.1 hr with rfl | hr
    · exact .inl (by decide)
    · cases hr
  obtain ⟨q, s', hq⟩ := realloc_ok hi rfl rfl (p := 4112) (.inr ⟨100, List.mem_cons_self⟩) hroom
  obtain ⟨h1, h2⟩ := C37_shrunk hh (p := 4112) (n := 100) List.mem_cons_self (by decide) hroom hq
  subst h1 h2
  exact ⟨s', s', answer 8192, hh, hroom, hq, BitVec.eq_of_toNat_eq ((C37_history_partial hh).1.trans (by decide))⟩

/-! #### Big blocks are remembered -/

/-- At every point of every schedule no more than the limit of big blocks are remembered, each with a record of it, and each as big as the settings say. -/
theorem C37_big {cfg : Config} {w : HeapWorld} (h : HeapRun cfg w) :
    w.s.big.length ≤ cfg.maxbig ∧ ∀ d ∈ w.s.big, ∃ D, w.s.desc d = some D ∧ cfg.rememberbigger ≤ D.len := by
  obtain ⟨h1, h2, h3⟩ := big_inv h
  exact ⟨by omega, h3⟩

/-- What is remembered stays so, with its record; and a block that is given back to the real allocator is remembered exactly when it is big and there is room. -/
theorem C37_remembered {cfg : Config} {w w' : HeapWorld} (h : HeapRun cfg w) {a : HeapAct} (hf : a.Fair w) (hrun : a.run cfg w = .ok w') :
    (∀ d ∈ w.s.big, d ∈ w'.s.big ∧ w'.s.desc d = w.s.desc d) ∧
    ∀ d D, a = .freeC d → w.s.desc d = some D → (d ∈ w'.s.big ↔ cfg.rememberbigger ≤ D.len ∧ w.s.big.length < cfg.maxbig) := by
  obtain ⟨i1, i2, i3⟩ := big_inv h
  obtain ⟨h0, ⟨h1, h2, h3⟩ | ⟨e, E, he, hE, hE', h3, h4, h5, h6⟩⟩ := big_step h hf hrun
  · refine ⟨fun d hd => ⟨by rw [h1]; exact hd, h0 d hd⟩, fun d D hd hD => ?_⟩
    have hn := h3 d D hd hD
    rw [← i1]
    refine ⟨fun hb => ?_, fun hb => absurd hb hn⟩
    subst hd
    have hl : d ∈ w.leaving := hf
    have := h.inv.once d
    unfold tally at this
    have c1 := List.count_pos_iff.2 hl
    rw [h1] at hb
    have c2 := List.count_pos_iff.2 hb
    omega
  · refine ⟨fun d hd => ⟨by rw [h5]; exact List.mem_append_left _ hd, h0 d hd⟩, fun d D hd hD => ?_⟩
    subst he
    cases hd
    rw [hE] at hD; cases hD
    rw [← i1]
    exact ⟨fun _ => ⟨h3, h4⟩, fun _ => by rw [h5]; exact List.mem_append_right _ (.head _)⟩

/-! ### C38: misuse -/

/-- C38: a program that gives back blocks it has, and writes to blocks it has, is never reported, whatever the level (1, the default, or more). (Partial: without `HDMP_FILL`, see `C38_not_fill`, and
without a limit; one thread, or a level below 2, see `C38_not_threads`; and not at level 0, see `C38_not_level0`.) -/
theorem C38_never_partial {cfg : Config} (hfill : cfg.doFill = false) (hlim : cfg.allocLimit = 0) {s : St} {evs : List HeapEv} (h : HeapHist cfg s evs) {c : HeapCall} (hf : c.Fair s evs) :
    ∃ r, c.run cfg s evs = .ok r := by
  have hi := h.inv
  cases c with
  | malloc size ans fresh => obtain ⟨s', k⟩ := malloc_ok hi hfill hlim hf; simp only [HeapCall.run]; rw [k]; exact ⟨_, rfl⟩
  | aligned align size ans fresh => obtain ⟨p, s', k⟩ := aligned_ok hi hfill hlim hf.1 hf.2; simp only [HeapCall.run]; rw [k]; exact ⟨_, rfl⟩
  | calloc num size ans fresh => obtain ⟨p, s', k⟩ := calloc_ok hi hfill hlim hf; simp only [HeapCall.run]; rw [k]; exact ⟨_, rfl⟩
  | realloc p size ans fresh => obtain ⟨q, s', k⟩ := realloc_ok hi hfill hlim hf.1 hf.2; simp only [HeapCall.run]; rw [k]; exact ⟨_, rfl⟩
  | free p =>
    simp only [HeapCall.run]
    rcases hf with hp | ⟨n, hp⟩
    · subst hp; exact ⟨_, rfl⟩
    · obtain ⟨s', k⟩ := free_ok hi hfill hp
      rw [k]; exact ⟨_, rfl⟩
  | write a v => exact ⟨_, rfl⟩

/-- C38 for programs with threads: below level 2, where the calls do nothing before their sections, nothing is reported in any schedule. -/
theorem C38_never_threads_partial {cfg : Config} (hfill : cfg.doFill = false) (hlim : cfg.allocLimit = 0) {w : HeapWorld} (h : HeapRun cfg w) {a : HeapAct} (hf : a.Fair w) :
    ∃ w', a.run cfg w = .ok w' := by
  have hi := h.inv
  cases a with
  | mallocA size ans fresh =>
    obtain ⟨h1, h2, h3⟩ := hf
    obtain ⟨d, s, k1, _⟩ := inv_open hi (fresh := fresh) (guard := ans.base) (size := size) (N := 16 + size + 4) rfl (by omega) h2 h3 (Nat.le_refl _) (by omega)
    simp only [HeapAct.run]
    unfold Heap.mallocA
    rw [Nat.mod_eq_of_lt h1, k1]
    exact ⟨_, rfl⟩
  | alignedA align size ans fresh =>
    obtain ⟨h0, h1, h2, h3⟩ := hf
    have hsp := internalSpace_ge h0
    obtain ⟨d, s, k1, _⟩ := inv_open hi (fresh := fresh) (guard := ans.base + internalSpace align - 16) (size := size) (N := internalSpace align + size + 4) rfl (by omega) h2 h3 (by omega) (by omega)
    simp only [HeapAct.run]
    unfold Heap.alignedA
    rw [if_neg (by omega), Nat.mod_eq_of_lt h1, k1]
    exact ⟨_, rfl⟩
  | mallocB d n =>
    obtain ⟨D, hD, hl, ⟨_, k, _⟩ | ⟨s, k1, _⟩⟩ := inv_account hi hf
    · exact absurd hlim k
    · simp only [HeapAct.run]; rw [k1]; exact ⟨_, rfl⟩
  | freeA p =>
    obtain ⟨n, hf⟩ := hf
    obtain ⟨d, D, N, s, _, _, _, _, _, _, _, k1, _⟩ := inv_freeA hi hf
    simp only [HeapAct.run]; rw [k1]; exact ⟨_, rfl⟩
  | freeB d p =>
    obtain ⟨e, s, k1, _⟩ := inv_freeB hi hf
    simp only [HeapAct.run]; rw [k1]; exact ⟨_, rfl⟩
  | freeC d =>
    obtain ⟨D, N, hh⟩ := hi.leaving hf
    obtain ⟨s, k1, _⟩ := inv_freeC hi hf (sanityFree_ok hfill hh)
    simp only [HeapAct.run]; rw [k1]; exact ⟨_, rfl⟩
  | write a v => exact ⟨_, rfl⟩

/-- C38: a block that was given back is given back again. This is reported, while the block is among those the heap keeps: the last 1024 (or `HDMP_FREELISTSIZE`) that were given back. (Partial: later
it is not, see `C38_not_late`.) -/
theorem C38_twice_partial {cfg : Config} (hc : cfg.doFill = false ∨ cfg.level < 2) {s : St} {evs : List HeapEv} (h : HeapHist cfg s evs) {p : Nat} (hp : p ∈ recent cfg.freelistmax evs) :
    free cfg p s = .abort := by
  obtain ⟨d, D, N, _, rfl, hh⟩ := HInv.recent h.inv hp
  unfold Heap.free
  have he : enter cfg s = .ok () := by
    rcases hc with hc | hc
    · exact enter_ok h.inv hc
    · unfold enter; rw [if_neg (by omega)]
  rw [if_neg (by omega), he, Res.bind_ok, freeA_free hh]
  rfl

/-- C38 with threads: the block was given back, or another thread is about to give it back (and has marked it). -/
theorem C38_twice_threads_partial {cfg : Config} {w : HeapWorld} (h : HeapRun cfg w) {p : Nat} (hp : p ∈ recent cfg.freelistmax w.evs ∨ ∃ d, (d, p) ∈ w.closing) :
    (HeapAct.freeA p).run cfg w = .abort := by
  have key : ∃ d D N, D.data + 16 = p ∧ Held w.s d D N memFree := by
    rcases hp with hp | ⟨d, hp⟩
    · obtain ⟨d, D, N, _, h1, h2⟩ := HInv.recent h.inv hp
      exact ⟨d, D, N, h1, h2⟩
    · have hc := h.inv.closed _ hp
      obtain ⟨D, N, hh⟩ := h.inv.held d (.inl hc.1)
      have hst : stateOf w d = memFree := by
        unfold stateOf
        rw [if_pos (.inl (List.mem_map.2 ⟨_, hp, rfl⟩))]
      rw [hst] at hh
      exact ⟨d, D, N, hc.2 D hh.1, hh⟩
  obtain ⟨d, D, N, rfl, hh⟩ := key
  simp only [HeapAct.run]
  rw [freeA_free hh]
  rfl

/-- C38: a byte of a guard word (the four bytes after a block, or those from eight to five before it) was overwritten, and anything else was written anywhere, but for the pointer
in the eight bytes before. When the block is given back this is reported. (Partial: the pointer is not guarded; nor are the four bytes right before a block, see `C38_not_before`.) -/
theorem C38_overwritten_partial {cfg : Config} {s : St} {evs : List HeapEv} (h : HeapHist cfg s evs) {p n : Nat} (hp : (p, n) ∈ blocks evs) {m : Nat → Byte} {x : Nat}
    (hx : (p - 8 ≤ x ∧ x < p - 4) ∨ (p + n ≤ x ∧ x < p + n + 4)) (hne : m x ≠ s.mem x) (hg : ∀ y, p - 16 ≤ y → y < p - 8 → m y = s.mem y) : free cfg p { s with mem := m } = .abort :=
  free_bad h.inv hp hx hne hg

/-- C38, at level 2: then every call reports it, and it does not matter what else was overwritten. -/
theorem C38_overwritten_level2 {cfg : Config} (hl : 2 ≤ cfg.level) {s : St} {evs : List HeapEv} (h : HeapHist cfg s evs) {p n : Nat} (hp : (p, n) ∈ blocks evs) {m : Nat → Byte} {x : Nat}
    (hx : (p - 8 ≤ x ∧ x < p - 4) ∨ (p + n ≤ x ∧ x < p + n + 4)) (hne : m x ≠ s.mem x) (size fresh num align q : Nat) (ans : Answer) :
    malloc cfg size ans fresh { s with mem := m } = .abort ∧ alignedAlloc cfg align size ans fresh { s with mem := m } = .abort ∧ calloc cfg num size ans fresh { s with mem := m } = .abort ∧
      realloc cfg q size ans fresh { s with mem := m } = .abort ∧ (q ≠ 0 → free cfg q { s with mem := m } = .abort) := by
  have he := enter_bad h.inv hl hp hx hne
  unfold Heap.malloc Heap.alignedAlloc Heap.calloc Heap.realloc Heap.free
  rw [he]
  exact ⟨rfl, rfl, rfl, rfl, fun hq => by rw [if_neg hq]; rfl⟩

/-- Not true: writes to the four bytes right before a block are not seen. -/
theorem C38_not_before {cfg : Config} (hfill : cfg.doFill = false) {s : St} {evs : List HeapEv} (h : HeapHist cfg s evs) {p n : Nat} (hp : (p, n) ∈ blocks evs) {m : Nat → Byte}
    (hm : ∀ x, ¬(p - 4 ≤ x ∧ x < p) → m x = s.mem x) : ∃ s', free cfg p { s with mem := m } = .ok s' :=
  free_ok (s := { s with mem := m }) (inv_pad h.inv hp (fun x hx => hm x (by omega))) hfill hp

/-- Not true: at level 2, when a thread is in `free`, between its check and the lock, the calls of all others are reported. -/
theorem C38_not_threads {cfg : Config} (hl : 2 ≤ cfg.level) {w : HeapWorld} (h : HeapRun cfg w) (hc : w.closing ≠ []) : enter cfg w.s = .abort := by
  obtain ⟨q, l, hq⟩ := List.exists_cons_of_ne_nil hc
  have hqm : q ∈ w.closing := by rw [hq]; exact List.mem_cons_self
  have hqh := (h.inv.closed q hqm).1
  have key : ∀ l, (∀ d ∈ l, d ∈ w.s.heap) → q.1 ∈ l → assertHeap.goHeap w.s l = .abort := by
    intro l
    induction l with
    | nil => intro _ h; cases h
    | cons d l ih =>
      intro hl hd
      obtain ⟨D, N, hh⟩ := h.inv.held d (.inl (hl d List.mem_cons_self))
      rw [assertHeap.goHeap, getState_held hh, Res.bind_ok]
      split
      · rfl
      · rename_i hst
        refine ih (fun e he => hl e (List.mem_cons_of_mem _ he)) ?_
        rcases List.mem_cons.1 hd with e | e
        · exfalso
          refine hst ?_
          unfold stateOf
          rw [if_pos (.inl (e ▸ List.mem_map.2 ⟨q, hqm, rfl⟩))]
          decide
        · exact e
  unfold enter assertHeap
  rw [if_pos hl, if_neg (by omega), key _ (fun _ h => h) hqh]
  rfl

/-- Not true: at level 0 the first block comes from the real allocator, and `free` takes it for one with guards. -/
theorem C38_not_level0 {cfg : Config} (hl : cfg.level = 0) (mem : Nat → Byte) {size fresh a : Nat} (h16 : 16 ≤ a) : ∃ s, mallocTop cfg true size (answer a) fresh (St.empty mem) = .ok (a, s) ∧
    useHdmp cfg false = true ∧ free cfg a s = .ub := by
  refine ⟨realMalloc size (answer a) (St.empty mem), ?_, rfl, ?_⟩
  · unfold mallocTop useHdmp
    simp [hl, answer]
  · unfold Heap.free enter
    rw [if_neg (by omega), if_neg (by omega), Res.bind_ok]
    unfold Heap.freeA load
    have : (realMalloc size (answer a) (St.empty mem)).mapped (a - 16) 8 = false := by
      unfold realMalloc answer
      simp only
      rw [if_neg (by omega)]
      simp only [St.mapped, St.empty, List.any_cons, List.any_nil, Bool.or_false, decide_eq_false_iff_not]
      omega
    rw [this]
    rfl

/-- Not true: with `HDMP_FILL` the memory that was given back is compared wrongly, and a program that takes a block of eight bytes and gives it back is reported when the block is to be reused. -/
theorem C38_not_fill : ∃ (cfg : Config) (s : St), cfg.doFill = true ∧ HeapHist cfg s [.take 4112 8] ∧ free cfg 4112 s = .abort := by
  have e : (do let (_, s) ← malloc ⟨1, true, 0, 262144, 4096, 0⟩ 8 (answer 4096) 1 (St.empty (fun _ => 0)); free ⟨1, true, 0, 262144, 4096, 0⟩ 4112 s) = .abort := by rfl
  have hp : (malloc ⟨1, true, 0, 262144, 4096, 0⟩ 8 (answer 4096) 1 (St.empty (fun _ => 0))).bind (fun r => Res.ok r.1) = Res.ok 4112 := by rfl
  cases hm : malloc ⟨1, true, 0, 262144, 4096, 0⟩ 8 (answer 4096) 1 (St.empty (fun _ => 0)) with
  | ok r =>
    obtain ⟨p, s⟩ := r
    rw [hm] at e hp
    injection hp with hp
    simp only at hp
    subst hp
    refine ⟨⟨1, true, 0, 262144, 4096, 0⟩, s, rfl, ?_, e⟩
    refine .step (c := .malloc 8 (answer 4096) 1) (q := 4112) (.start (fun _ => 0)) ⟨by decide, legal_of (by decide) (by decide) (fun _ h => nomatch h), ⟨by decide, by decide, rfl⟩⟩ ?_
    simp only [HeapCall.run]
    rw [hm]; rfl
  | exc => rw [hm] at hp; cases hp
  | ub => rw [hm] at hp; cases hp
  | abort => rw [hm] at hp; cases hp

/-- Not true: a block that is no longer kept is given back again. -/
theorem C38_not_late : ∃ (cfg : Config) (s : St), cfg.freelistmax = 0 ∧ HeapHist cfg s [.give 4112, .take 4112 8] ∧ free cfg 4112 s = .ub := by
  obtain ⟨s, hs, hh, hi⟩ := take_first ⟨1, false, 0, 262144, 4096, 0⟩ rfl rfl 8 (by decide)
  have e : ((malloc ⟨1, false, 0, 262144, 4096, 0⟩ 8 (answer 4096) 1 (St.empty (fun _ => 0))).bind (fun r => (free ⟨1, false, 0, 262144, 4096, 0⟩ 4112 r.2).bind
    (fun s => free ⟨1, false, 0, 262144, 4096, 0⟩ 4112 s))) = .ub := rfl
  rw [hs, Res.bind] at e
  obtain ⟨s', hf⟩ := free_ok hi rfl (p := 4112) (n := 8) List.mem_cons_self
  simp only at e
  rw [hf, Res.bind] at e
  refine ⟨_, s', rfl, .step (c := .free 4112) (q := 0) hh (.inr ⟨8, List.mem_cons_self⟩) ?_, e⟩
  simp only [HeapCall.run]
  rw [hf]; rfl

/-! ### C60: blocks -/

/-- C60: the blocks of a program are apart, with room for the guards between them, at every point of every schedule. -/
theorem C60_apart {cfg : Config} {w : HeapWorld} (h : HeapRun cfg w) : (blocks w.evs).Pairwise (fun r q => r.1 + r.2 + 20 ≤ q.1 ∨ q.1 + q.2 + 20 ≤ r.1) := by
  have hi := h.inv
  rw [← hi.evs]
  refine pairwise_map_nodup _ hi.heapNodup (fun d hd e he hne => ?_)
  obtain ⟨D, n, hD⟩ := hi.held d (.inl hd)
  obtain ⟨E, m, hE⟩ := hi.held e (.inl he)
  have := hi.blocksApart (.inl hd) (.inl he) hD.1 hE.1 hne
  rw [blk_of hD.1, blk_of hE.1]
  simp only
  omega

/-- C60: their memory is that of blocks of the real allocator. -/
theorem C60_mapped {cfg : Config} {w : HeapWorld} (h : HeapRun cfg w) {p n : Nat} (hp : (p, n) ∈ blocks w.evs) : ∃ r ∈ w.s.real, r.1 + 16 ≤ p ∧ p + n + 4 ≤ r.1 + r.2 := by
  obtain ⟨d, D, hd, hD, rfl, rfl⟩ := h.inv.block hp
  obtain ⟨D', N, hh⟩ := h.inv.held d (.inl hd)
  have e := hh.1.symm.trans hD; injection e with e; subst e
  exact ⟨_, hh.2.1, by have := hh.2.2.1; simp only; omega, by have := hh.2.2.2.1; simp only; omega⟩

/-- C60: what is in a block stays as it is, whatever any thread does with other blocks. -/
theorem C60_kept_threads {cfg : Config} {w w' : HeapWorld} (h : HeapRun cfg w) {a : HeapAct} (hf : a.Fair w) (hrun : a.run cfg w = .ok w') {q k : Nat} (hq : w.Has q k) (hq' : w'.Has q k) {x : Nat}
    (h1 : q ≤ x) (h2 : x < q + k) (hw : ∀ v, a ≠ .write x v) : w'.s.mem x = w.s.mem x := by
  have hi := h.inv
  obtain ⟨e, E, he, hE, e1, e2⟩ := hi.block hq.1
  obtain ⟨E', M, hh⟩ := hi.held e (.inl he)
  have ee := hh.1.symm.trans hE; injection ee with ee; subst ee
  have hreal : ∃ r ∈ w.s.real, r.1 ≤ x ∧ x < r.1 + r.2 := ⟨_, hh.2.1, by have := hh.2.2.1; simp only; omega, by have := hh.2.2.2.1; simp only; omega⟩
  cases a with
  | mallocA size ans fresh =>
    obtain ⟨g1, g2, g3⟩ := hf
    obtain ⟨d, s, k1, _, _, _, k2⟩ := inv_open hi (fresh := fresh) (guard := ans.base) (size := size) (N := 16 + size + 4) rfl (by omega) g2 g3 (Nat.le_refl _) (by omega)
    simp only [HeapAct.run] at hrun
    unfold Heap.mallocA at hrun
    rw [Nat.mod_eq_of_lt g1, k1, Res.bind_ok] at hrun
    injection hrun with hrun; subst hrun
    exact k2 x hreal
  | alignedA align size ans fresh =>
    obtain ⟨g0, g1, g2, g3⟩ := hf
    have hsp := internalSpace_ge g0
    obtain ⟨d, s, k1, _, _, _, k2⟩ := inv_open hi (fresh := fresh) (guard := ans.base + internalSpace align - 16) (size := size) (N := internalSpace align + size + 4) rfl (by omega) g2 g3 (by omega) (by omega)
    simp only [HeapAct.run] at hrun
    unfold Heap.alignedA at hrun
    rw [if_neg (by omega), Nat.mod_eq_of_lt g1, k1, Res.bind_ok] at hrun
    injection hrun with hrun; subst hrun
    exact k2 x hreal
  | mallocB d n =>
    obtain ⟨D, hD, hl, ⟨_, _, _, k⟩ | ⟨s, k1, _, _, _, k2⟩⟩ := inv_account hi hf
    · simp only [HeapAct.run] at hrun
      rw [k] at hrun; cases hrun
    · simp only [HeapAct.run] at hrun
      rw [k1, Res.bind_ok] at hrun
      injection hrun with hrun; subst hrun
      have hdo : d ∈ w.opening.map (·.1) := List.mem_map.2 ⟨_, hf, rfl⟩
      have hne : e ≠ d := fun hh => (hi.inOpening hdo).1 (hh ▸ he)
      have := hi.blocksApart (.inl he) (.inr (.inl hdo)) hE hD hne
      exact k2 x (by omega)
  | freeA p =>
    obtain ⟨n, hf⟩ := hf
    obtain ⟨d, D, N, s, hd, hD, hp, _, r1, r2, r3, k1, _, _, _, k2⟩ := inv_freeA (cfg := cfg) hi hf
    simp only [HeapAct.run] at hrun
    rw [k1, Res.bind_ok] at hrun
    injection hrun with hrun; subst hrun
    have hne : e ≠ d := by
      rintro rfl
      have := hE.symm.trans hD; injection this with this; subst this
      refine hq'.2 e ?_
      rw [show q = p by omega]
      exact List.mem_cons_self
    refine k2 x ?_
    have hb : E'.base ≠ D.base := fun hb => hne (hi.inj e d E' D (.inl he) (.inl hd) hE hD hb)
    obtain ⟨_, g2, g3, g4, _⟩ := hh
    rcases hi.apart.two g2 r1 with ee | ee
    · injection ee with ee _; exact absurd ee hb
    · simp only at ee; omega
  | freeB d p =>
    obtain ⟨e, s, k1, _, k2, _⟩ := inv_freeB hi hf
    simp only [HeapAct.run] at hrun
    rw [k1, Res.bind_ok] at hrun
    injection hrun with hrun; subst hrun
    exact congrFun k2 x
  | freeC d =>
    simp only [HeapAct.run] at hrun
    obtain ⟨s, g1, g2⟩ := Res.bind_eq_ok.1 hrun
    have hs : sanityFree cfg d w.s = .ok () := by
      unfold Heap.freeC at g1
      obtain ⟨x, _, g1⟩ := Res.bind_eq_ok.1 g1
      obtain ⟨u, g1, _⟩ := Res.bind_eq_ok.1 g1
      exact g1
    obtain ⟨s', k1, _, k2, _⟩ := inv_freeC hi hf hs
    rw [k1] at g1; injection g1 with g1; subst g1
    injection g2 with g2; subst g2
    exact congrFun k2 x
  | write a v =>
    simp only [HeapAct.run] at hrun
    injection hrun with hrun; subst hrun
    exact if_neg (fun hx => hw v (by rw [hx]))

/-- C60 for histories of calls: what is in a block that is still in use stays as it is. -/
theorem C60_kept {cfg : Config} {s s' : St} {evs evs' : List HeapEv} (h : HeapHist cfg s evs) {c : HeapCall} {r : Nat} (hf : c.Fair s evs) (hrun : c.run cfg s evs = .ok (s', r, evs')) {q k : Nat}
    (hq : (q, k) ∈ blocks evs) (hq' : (q, k) ∈ blocks evs') {x : Nat} (h1 : q ≤ x) (h2 : x < q + k) (hw : ∀ v, c ≠ .write x v) : s'.mem x = s.mem x := by
  have hi := h.inv
  have hreal := still_real hi hq (x := x) (by omega) (by omega)
  cases c with
  | malloc size ans fresh =>
    obtain ⟨⟨p, s1⟩, g1, g2⟩ := Res.bind_eq_ok.1 hrun
    simp only at g2
    injection g2 with g2; injection g2 with e1 e2; subst e1
    exact (malloc_spec hi hf g1).2.2 x hreal
  | aligned align size ans fresh =>
    obtain ⟨⟨p, s1⟩, g1, g2⟩ := Res.bind_eq_ok.1 hrun
    simp only at g2
    injection g2 with g2; injection g2 with e1 e2; subst e1
    exact (aligned_spec hi hf.1 hf.2 g1).2.2 x hreal
  | calloc num size ans fresh =>
    obtain ⟨⟨p, s1⟩, g1, g2⟩ := Res.bind_eq_ok.1 hrun
    simp only at g2
    injection g2 with g2; injection g2 with e1 e2; subst e1
    exact (calloc_spec hi hf g1).2.2.1 x hreal
  | realloc p size ans fresh =>
    obtain ⟨⟨r, s1⟩, g1, g2⟩ := Res.bind_eq_ok.1 hrun
    simp only at g2
    injection g2 with g2; injection g2 with e1 e2; injection e2 with e2 e3; subst e1 e2 e3
    rcases hf.1 with hp | ⟨n, hp⟩
    · subst hp
      unfold Heap.realloc at g1
      obtain ⟨_, _, g1⟩ := Res.bind_eq_ok.1 g1
      rw [if_pos rfl] at g1
      exact (malloc_spec hi hf.2 g1).2.2 x hreal
    · obtain ⟨d, D, N, _, f1, _⟩ := still_block hi hp
      rw [if_neg (by omega)] at hq'
      rcases realloc_spec hi hp hf.2 g1 with ⟨_, e1, e2⟩ | ⟨_, _, _, hne, g3, _⟩
      · subst e2; rfl
      · rw [if_neg hne] at hq'
        refine g3 q k hq ?_ x h1 h2
        have := (List.mem_filter.1 hq').2
        simpa using this
  | free p =>
    obtain ⟨s1, g1, g2⟩ := Res.bind_eq_ok.1 hrun
    injection g2 with g2; injection g2 with e1 e2; injection e2 with e2 e3; subst e1 e2 e3
    rcases hf with hp | ⟨n, hp⟩
    · subst hp
      injection g1 with g1; subst g1; rfl
    · obtain ⟨d, D, N, _, f1, _⟩ := still_block hi hp
      rw [if_neg (by omega)] at hq'
      refine (free_spec hi hp g1).2 q k hq ?_ x h1 h2
      have := (List.mem_filter.1 hq').2
      simpa using this
  | write a v =>
    injection hrun with g2; injection g2 with e1 e2; subst e1
    exact if_neg (fun hx => hw v (by rw [hx]))

/-- C60: `calloc` returns zeros. (When the product fits; see `C60_not_calloc`.) -/
theorem C60_calloc {cfg : Config} {s s' : St} {evs evs' : List HeapEv} (h : HeapHist cfg s evs) {num size fresh p : Nat} {ans : Answer} (hf : (HeapCall.calloc num size ans fresh).Fair s evs)
    (hrun : (HeapCall.calloc num size ans fresh).run cfg s evs = .ok (s', p, evs')) : (p, size * num) ∈ blocks evs' ∧ ∀ x, p ≤ x → x < p + size * num → s'.mem x = 0 := by
  obtain ⟨⟨p', s1⟩, g1, g2⟩ := Res.bind_eq_ok.1 hrun
  simp only at g2
  injection g2 with g2; injection g2 with e1 e2; injection e2 with e2 e3; subst e1 e2 e3
  exact ⟨List.mem_cons_self, (calloc_spec h.inv hf g1).2.2.2⟩

/-- C60: `realloc` returns a block with what was in the old one. -/
theorem C60_realloc {cfg : Config} {s s' : St} {evs evs' : List HeapEv} (h : HeapHist cfg s evs) {p n size fresh q : Nat} {ans : Answer} (hp : (p, n) ∈ blocks evs)
    (hf : (HeapCall.realloc p size ans fresh).Fair s evs) (hrun : (HeapCall.realloc p size ans fresh).run cfg s evs = .ok (s', q, evs')) :
    (∃ k, size ≤ k ∧ (q, k) ∈ blocks evs') ∧ ∀ i, i < n → i < size → s'.mem (q + i) = s.mem (p + i) := by
  have hi := h.inv
  obtain ⟨d, D, N, _, f1, _⟩ := still_block hi hp
  obtain ⟨⟨r, s1⟩, g1, g2⟩ := Res.bind_eq_ok.1 hrun
  simp only at g2
  injection g2 with g2; injection g2 with e1 e2; injection e2 with e2 e3; subst e1 e2 e3
  rw [if_neg (by omega)]
  rcases realloc_spec hi hp hf.2 g1 with ⟨e0, e1, e2⟩ | ⟨_, _, _, hne, _, g4⟩
  · subst e1 e2
    rw [if_pos rfl]
    exact ⟨⟨n, e0, hp⟩, fun _ _ _ => rfl⟩
  · rw [if_neg hne]
    refine ⟨⟨size, Nat.le_refl _, List.mem_filter.2 ⟨List.mem_cons_self, by simpa using hne⟩⟩, fun i h1 _ => g4 i h1⟩

/-- C60: `aligned_alloc` (and `memalign`, `posix_memalign`, `valloc`) returns an aligned block. -/
theorem C60_aligned {cfg : Config} {s s' : St} {evs evs' : List HeapEv} (h : HeapHist cfg s evs) {align size fresh p : Nat} {ans : Answer} (hf : (HeapCall.aligned align size ans fresh).Fair s evs)
    (ha : align ∣ ans.base) (hrun : (HeapCall.aligned align size ans fresh).run cfg s evs = .ok (s', p, evs')) : (p, size) ∈ blocks evs' ∧ align ∣ p := by
  obtain ⟨⟨p', s1⟩, g1, g2⟩ := Res.bind_eq_ok.1 hrun
  simp only at g2
  injection g2 with g2; injection g2 with e1 e2; injection e2 with e2 e3; subst e1 e2 e3
  refine ⟨List.mem_cons_self, ?_⟩
  rw [(aligned_spec h.inv hf.1 hf.2 g1).1]
  exact Nat.dvd_add ha (Nat.dvd_mul_right _ _)

/-- C60: `malloc` returns a block of the size that was asked for, 16 bytes into that of the real allocator (so it is aligned as that is). -/
theorem C60_malloc {cfg : Config} {s s' : St} {evs evs' : List HeapEv} (h : HeapHist cfg s evs) {size fresh p : Nat} {ans : Answer} (hf : (HeapCall.malloc size ans fresh).Fair s evs)
    (hrun : (HeapCall.malloc size ans fresh).run cfg s evs = .ok (s', p, evs')) : (p, size) ∈ blocks evs' ∧ p = ans.base + 16 := by
  obtain ⟨⟨p', s1⟩, g1, g2⟩ := Res.bind_eq_ok.1 hrun
  simp only at g2
  injection g2 with g2; injection g2 with e1 e2; injection e2 with e2 e3; subst e1 e2 e3
  exact ⟨List.mem_cons_self, (malloc_spec h.inv hf g1).1⟩

/-- Not true of `calloc` when the product is 2^64 or more: `calloc(2^32, 2^32)` is a block of no bytes. -/
theorem C60_not_calloc {cfg : Config} {s : St} {ans : Answer} {fresh : Nat} : calloc cfg (2 ^ 32) (2 ^ 32) ans fresh s = calloc cfg 0 0 ans fresh s := rfl

/-- Not true when there is no memory: `malloc` writes to the address 0. -/
theorem C60_not_memory {cfg : Config} (hl : cfg.level < 2) {size fresh : Nat} {mem : Nat → Byte} : malloc cfg size (answer 0) fresh (St.empty mem) = .ub := by
  unfold Heap.malloc enter
  rw [if_neg (by omega), Res.bind_ok]
  unfold Heap.mallocA build store St.mapped realMalloc answer
  rfl

/-- Nor of the largest sizes: the room for the guards makes them small. -/
theorem C60_not_huge {cfg : Config} (hl : cfg.level < 2) {a fresh : Nat} (ha : a ≠ 0) {mem : Nat → Byte} : malloc cfg (2 ^ 64 - 20) (answer a) fresh (St.empty mem) = .ub := by
  unfold Heap.malloc enter
  rw [if_neg (by omega), Res.bind_ok]
  unfold Heap.mallocA
  have e : (16 + (2 ^ 64 - 20) + 4) % 2 ^ 64 = 0 := by decide
  rw [e]
  unfold realMalloc answer
  simp only
  rw [if_neg ha]
  unfold build store St.mapped St.empty
  simp
  rw [if_neg (by omega)]
  rfl

/-! ### Examples -/

/-- A program takes two blocks, gives back one, and makes the other larger. -/
def heapCalls : List HeapCall := [.malloc 100 (answer 4096) 1, .calloc 3 10 (answer 8192) 2, .write 8210 7, .free 4112, .realloc 8208 50 (answer 12288) 3]

/-- There is room. -/
def roomB (s : St) (n : Nat) (ans : Answer) (fresh : Nat) : Bool :=
  n < 2 ^ 64 && ans.base != 0 && ans.base + n < 2 ^ 64 && s.real.all (fun r => r.1 + r.2 ≤ ans.base || ans.base + n ≤ r.1) && fresh != 0 && fresh < 2 ^ 64 && (s.desc fresh).isNone

def hasB (evs : List HeapEv) (p : Nat) : Bool := (blocks evs).any (fun b => b.1 == p)

/-- The call is fair. -/
def fairB (s : St) (evs : List HeapEv) : HeapCall → Bool
  | .malloc size ans fresh => roomB s (16 + size + 4) ans fresh
  | .aligned align size ans fresh => 0 < align && roomB s (internalSpace align + size + 4) ans fresh
  | .calloc num size ans fresh => roomB s (16 + size * num + 4) ans fresh
  | .realloc p size ans fresh => hasB evs p && roomB s (16 + size + 4) ans fresh
  | .free p => hasB evs p
  | .write a _ => (blocks evs).any (fun b => b.1 ≤ a && a < b.1 + b.2)

theorem roomB_sound {s : St} {n : Nat} {ans : Answer} {fresh : Nat} (h : roomB s n ans fresh = true) : Room s n ans fresh := by
  simp only [roomB, Bool.and_eq_true, decide_eq_true_eq, bne_iff_ne, List.all_eq_true, Bool.or_eq_true, Option.isNone_iff_eq_none] at h
  obtain ⟨⟨⟨⟨⟨⟨h1, h2⟩, h3⟩, h4⟩, h5⟩, h6⟩, h7⟩ := h
  exact ⟨h1, ⟨h2, h3, h4⟩, ⟨h5, h6, h7⟩⟩

theorem hasB_sound {evs : List HeapEv} {p : Nat} (h : hasB evs p = true) : ∃ n, (p, n) ∈ blocks evs := by
  obtain ⟨b, hb, he⟩ := List.any_eq_true.1 h
  have he : b.1 = p := by simpa using he
  exact ⟨b.2, by rw [← he]; exact hb⟩

theorem fairB_sound {s : St} {evs : List HeapEv} {c : HeapCall} (h : fairB s evs c = true) : c.Fair s evs := by
  cases c with
  | malloc size ans fresh => exact roomB_sound h
  | aligned align size ans fresh =>
    simp only [fairB, Bool.and_eq_true, decide_eq_true_eq] at h
    exact ⟨h.1, roomB_sound h.2⟩
  | calloc num size ans fresh => exact roomB_sound h
  | realloc p size ans fresh =>
    simp only [fairB, Bool.and_eq_true] at h
    exact ⟨.inr (hasB_sound h.1), roomB_sound h.2⟩
  | free p => exact .inr (hasB_sound h)
  | write a v =>
    obtain ⟨b, hb, he⟩ := List.any_eq_true.1 h
    simp only [Bool.and_eq_true, decide_eq_true_eq] at he
    exact ⟨b.1, b.2, hb, he⟩

/-- A history of calls, if they are fair. -/
def runCalls (cfg : Config) : List HeapCall → St → List HeapEv → Res (St × List HeapEv)
  | [], s, evs => .ok (s, evs)
  | c :: l, s, evs =>
      if fairB s evs c then do
        let (s, _, evs) ← c.run cfg s evs
        runCalls cfg l s evs
      else .exc

theorem hist_of_calls {cfg : Config} : ∀ (l : List HeapCall) {s s' : St} {evs evs' : List HeapEv}, HeapHist cfg s evs → runCalls cfg l s evs = .ok (s', evs') → HeapHist cfg s' evs'
  | [], s, s', evs, evs', h, hr => by
      injection hr with hr; injection hr with h1 h2; subst h1 h2; exact h
  | c :: l, s, s', evs, evs', h, hr => by
      unfold runCalls at hr
      split at hr
      · rename_i hf
        obtain ⟨⟨s1, q, evs1⟩, h1, h2⟩ := Res.bind_eq_ok.1 hr
        exact hist_of_calls l (.step h (fairB_sound hf) h1) h2
      · cases hr

/-- What is left of a state for a look. -/
def glance (r : Res (St × List HeapEv)) : Res (List (Nat × Nat) × Nat × Nat × List Nat × Byte × Byte) :=
  r.bind (fun r => .ok (blocks r.2, r.1.total.toNat, r.1.maxmem.toNat, freed r.2, r.1.mem 12306, r.1.mem 12354))

theorem glance_ok {r : Res (St × List HeapEv)} {x} (h : glance r = .ok x) : ∃ s evs, r = .ok (s, evs) ∧ x = (blocks evs, s.total.toNat, s.maxmem.toNat, freed evs, s.mem 12306, s.mem 12354) := by
  cases r with
  | ok r => injection h with h; exact ⟨r.1, r.2, rfl, h.symm⟩
  | exc => cases h
  | ub => cases h
  | abort => cases h

/-- At the levels 1 and 2: 100 and 30 bytes were taken, then 50, and 100 and 30 given back. What was written has moved. A block that was given back is given back again: that is reported. So is a write
right after the block in use. -/
theorem C38_example (level : Int) (hl : level = 1 ∨ level = 2) : ∃ s evs, HeapHist ⟨level, false, 1024, 262144, 4096, 0⟩ s evs ∧ blocks evs = [(12304, 50)] ∧ s.total.toNat = 50 ∧ s.maxmem.toNat = 130 ∧
    s.mem 12306 = 7 ∧ free ⟨level, false, 1024, 262144, 4096, 0⟩ 4112 s = .abort ∧
    free ⟨level, false, 1024, 262144, 4096, 0⟩ 12304 { s with mem := fun x => if x = 12354 then 0 else s.mem x } = .abort := by
  have h : glance (runCalls ⟨level, false, 1024, 262144, 4096, 0⟩ heapCalls (St.empty (fun _ => 0)) []) = .ok ([(12304, 50)], 50, 130, [8208, 4112], 7, 0xa5) := by
    rcases hl with rfl | rfl <;> rfl
  obtain ⟨s, evs, h1, h2⟩ := glance_ok h
  injection h2 with e1 h2; injection h2 with e2 h2; injection h2 with e3 h2; injection h2 with e4 h2; injection h2 with e5 e6
  have hh := hist_of_calls _ (.start _) h1
  refine ⟨s, evs, hh, e1.symm, e2.symm, e3.symm, e5.symm, ?_, ?_⟩
  · refine C38_twice_partial (.inl rfl) hh ?_
    show _ ∈ (if (1024 : Int) < 0 then _ else _)
    rw [if_neg (by decide), ← e4]
    exact List.mem_cons_of_mem _ List.mem_cons_self
  · refine C38_overwritten_partial hh (p := 12304) (n := 50) (by rw [← e1]; exact List.mem_cons_self) (x := 12354) (.inr (by decide)) ?_ (fun y h1 h2 => if_neg (by omega))
    show (if (12354 : Nat) = 12354 then (0 : Byte) else s.mem 12354) ≠ s.mem 12354
    rw [if_pos rfl, ← e6]
    decide

/-- A thread is in `free` while others go on: at level 2 they are reported. -/
theorem C38_example_threads : ∃ w : HeapWorld, HeapRun ⟨2, false, 1024, 262144, 4096, 0⟩ w ∧ w.closing ≠ [] ∧ blocks w.evs = [(4112, 8)] ∧ w.s.total.toNat = 8 ∧ enter ⟨2, false, 1024, 262144, 4096, 0⟩ w.s = .abort := by
  obtain ⟨cfg, hcfg⟩ : ∃ cfg : Config, cfg = ⟨2, false, 1024, 262144, 4096, 0⟩ := ⟨_, rfl⟩
  rw [← hcfg]
  have hfill : cfg.doFill = false := by rw [hcfg]
  have hlim : cfg.allocLimit = 0 := by rw [hcfg]
  have hl : (2 : Int) ≤ cfg.level := by rw [hcfg]; decide
  have r0 : HeapRun cfg ⟨St.empty (fun _ => 0), [], [], [], []⟩ := .start _
  have f0 : (HeapAct.mallocA 8 (answer 4096) 1).Fair ⟨St.empty (fun _ => 0), [], [], [], []⟩ :=
    ⟨by decide, legal_of (by decide) (by decide) (fun _ h => nomatch h), ⟨by decide, by decide, rfl⟩⟩
  obtain ⟨w1, e1⟩ := C38_never_threads_partial hfill hlim r0 f0
  have r1 := HeapRun.step r0 f0 e1
  obtain ⟨⟨d, s1⟩, q1, q2⟩ := Res.bind_eq_ok.1 e1
  injection q2 with q2; subst q2
  simp only at r1
  have f1 : (HeapAct.mallocB d 8).Fair ⟨s1, [(d, 8)], [], [], []⟩ := List.mem_cons_self
  obtain ⟨w2, e2⟩ := C38_never_threads_partial hfill hlim r1 f1
  have r2 := HeapRun.step r1 f1 e2
  obtain ⟨D, hD, hlen, ⟨_, k, _⟩ | ⟨s2, k1, _⟩⟩ := inv_account r1.inv (d := d) (n := 8) List.mem_cons_self
  · exact absurd hlim k
  · simp only [HeapAct.run] at e2
    simp only at k1
    rw [k1, Res.bind_ok] at e2
    injection e2 with e2; subst e2
    simp only at r2
    have hp : D.data + 16 = 4112 := by
      obtain ⟨d', s', z1, _, z2, _⟩ := inv_open r0.inv (fresh := 1) (guard := 4096) (size := 8) (N := 28) (ans := answer 4096) rfl (by decide) f0.2.1 f0.2.2 (by decide) (by decide)
      have : mallocA 8 (answer 4096) 1 (St.empty (fun _ => 0)) = .ok (d', s') := z1
      rw [this] at q1
      injection q1 with q1; injection q1 with q3 q4; subst q3 q4
      have := hD.symm.trans z2
      injection this with this
      subst this
      rfl
    have ee : ([(d, 8)] : List (Nat × Nat)).erase (d, 8) = [] := by simp
    rw [hp, ee] at r2
    have f2 : (HeapAct.freeA 4112).Fair ⟨s2, [], [], [], [.take 4112 8]⟩ := ⟨8, List.mem_cons_self, fun _ h => nomatch h⟩
    obtain ⟨w3, e3⟩ := C38_never_threads_partial hfill hlim r2 f2
    have r3 := HeapRun.step r2 f2 e3
    obtain ⟨⟨d3, s3⟩, q3, q4⟩ := Res.bind_eq_ok.1 e3
    injection q4 with q4; subst q4
    refine ⟨_, r3, by simp, rfl, (C37_threads_partial r3).1, C38_not_threads hl r3 (by simp)⟩

/-! #### A run in which a block is remembered -/

def bigCfg : Config := ⟨1, false, 0, 4, 1, 0⟩

/-- The world a step leads to. -/
def bigNext (w : HeapWorld) (a : HeapAct) : HeapWorld :=
  match a.run bigCfg w with
  | .ok w' => w'
  | _ => w

def bigRuns (w : HeapWorld) (a : HeapAct) : Bool :=
  match a.run bigCfg w with
  | .ok _ => true
  | _ => false

theorem bigNext_ok {w : HeapWorld} {a : HeapAct} (h : bigRuns w a = true) : a.run bigCfg w = .ok (bigNext w a) := by
  unfold bigRuns at h
  unfold bigNext
  generalize a.run bigCfg w = r at h ⊢
  cases r with
  | ok x => rfl
  | _ => cases h

def bigW0 : HeapWorld := ⟨St.empty (fun _ => 0), [], [], [], []⟩
def bigW1 : HeapWorld := bigNext bigW0 (.mallocA 8 (answer 4096) 1)
def bigW2 : HeapWorld := bigNext bigW1 (.mallocB 1 8)
def bigW3 : HeapWorld := bigNext bigW2 (.freeA 4112)
def bigW4 : HeapWorld := bigNext bigW3 (.freeB 1 4112)
def bigW5 : HeapWorld := bigNext bigW4 (.freeC 1)

theorem C37_example_big : HeapRun bigCfg bigW4 ∧ (HeapAct.freeC 1).Fair bigW4 ∧ (HeapAct.freeC 1).run bigCfg bigW4 = .ok bigW5 ∧ bigW4.s.big = [] ∧ bigW5.s.big = [1] := by
  have r0 : HeapRun bigCfg bigW0 := .start _
  have r1 : HeapRun bigCfg bigW1 :=
    .step r0 (a := .mallocA 8 (answer 4096) 1) ⟨by decide, legal_of (by decide) (by decide) (fun _ h => nomatch h), ⟨by decide, by decide, rfl⟩⟩ (bigNext_ok (by decide +kernel))
  have r2 : HeapRun bigCfg bigW2 := .step r1 (a := .mallocB 1 8) (show ((1 : Nat), (8 : Nat)) ∈ bigW1.opening by decide +kernel) (bigNext_ok (by decide +kernel))
  have c2 : bigW2.closing = [] := by decide +kernel
  have r3 : HeapRun bigCfg bigW3 := .step r2 (a := .freeA 4112) ⟨8, by decide +kernel, fun d h => by rw [c2] at h; cases h⟩ (bigNext_ok (by decide +kernel))
  have r4 : HeapRun bigCfg bigW4 := .step r3 (a := .freeB 1 4112) (show ((1 : Nat), (4112 : Nat)) ∈ bigW3.closing by decide +kernel) (bigNext_ok (by decide +kernel))
  exact ⟨r4, (show (1 : Nat) ∈ bigW4.leaving by decide +kernel), bigNext_ok (by decide +kernel), by decide +kernel, by decide +kernel⟩

end Pstack.Props
