import Verif.Spec.Stacks
import Verif.Props.SavedRegs
import Verif.Props.CoreNotes
import Verif.Proof.Maps
/-
C89: the stacks of all threads of a process.
-/
namespace Pstack.Props
open Pstack.Arch Pstack.Spec Pstack.Unwind Pstack.Stacks Pstack.Elf

/-! ### Registers -/

theorem field_number {bs : List Byte} {off w k : Nat} (h : off + k ≤ bs.length) (hw : 8 * k = w) : (BitVec.ofNat w (field bs off k)).toNat = leNat ((bs.drop off).take k) := by
  unfold field
  rw [load_eq, BitVec.toNat_ofNat, Nat.mod_eq_of_lt]
  have := Pstack.Dwarf.leNat_lt ((bs.drop off).take k)
  rw [List.length_take, List.length_drop, Nat.min_eq_left (by omega), show (256 : Nat) = 2 ^ 8 from rfl, ← Nat.pow_mul, hw] at this
  exact this

theorem user_places : ∀ n, n < 17 → ∃ u, general[n]? = some u ∧ generalPlaces[n]? = some (8 * userIndex u) ∧ userIndex u < 27 := by
  intro n hn
  have : ∀ n, n < 17 → (general[n]?.any (fun u => generalPlaces[n]? == some (8 * userIndex u) && decide (userIndex u < 27))) = true := by decide
  have h := this n hn
  rw [Option.any_eq_true] at h
  obtain ⟨u, h1, h2⟩ := h
  rw [Bool.and_eq_true, beq_iff_eq, decide_eq_true_eq] at h2
  exact ⟨u, h1, h2.1, h2.2⟩

theorem segment_places : ∀ n, n < 7 → ∃ u, segments[n]? = some u ∧ segmentPlaces[n]? = some (8 * userIndex u) ∧ userIndex u < 27 := by
  intro n hn
  have : ∀ n, n < 7 → (segments[n]?.any (fun u => segmentPlaces[n]? == some (8 * userIndex u) && decide (userIndex u < 27))) = true := by decide
  have h := this n hn
  rw [Option.any_eq_true] at h
  obtain ⟨u, h1, h2⟩ := h
  rw [Bool.and_eq_true, beq_iff_eq, decide_eq_true_eq] at h2
  exact ⟨u, h1, h2.1, h2.2⟩

/-- Each register is decoded from its place. -/
theorem recorded_decode {user fp : List Byte} (hu : 216 ≤ user.length) (hf : 512 ≤ fp.length) : Recorded user fp (decodeRegs user fp) := by
  intro n isFp off w h
  have hus : ∀ u : UserReg, userIndex u < 27 → ∃ v, (Out.ok (.u64 ((decodeRegs user fp).user u)) : Out RegVal) = .ok v ∧ regBytes v = 8 ∧ regNumber v = leNat ((user.drop (8 * userIndex u)).take 8) := by
    intro u hi
    exact ⟨_, rfl, rfl, field_number (by omega) rfl⟩
  unfold Regs.getDwarf slotOf
  unfold regPlace at h
  by_cases c0 : 0 ≤ n ∧ n ≤ 16
  · rw [if_pos c0] at h ⊢
    obtain ⟨u, h1, h2, h3⟩ := user_places n.toNat (by omega)
    rw [h2] at h
    cases h
    rw [h1]
    exact hus u h3
  rw [if_neg c0] at h ⊢
  by_cases c1 : 17 ≤ n ∧ n ≤ 32
  · rw [if_pos c1] at h ⊢
    cases h
    exact ⟨_, rfl, rfl, field_number (by omega) rfl⟩
  rw [if_neg c1] at h ⊢
  by_cases c2 : 33 ≤ n ∧ n ≤ 40
  · rw [if_pos c2] at h ⊢
    cases h
    exact ⟨_, rfl, rfl, field_number (by omega) rfl⟩
  rw [if_neg c2] at h ⊢
  by_cases c3 : 41 ≤ n ∧ n ≤ 48
  · rw [if_pos c3] at h ⊢
    cases h
    exact ⟨_, rfl, rfl, field_number (by omega) rfl⟩
  rw [if_neg c3] at h ⊢
  by_cases c4 : 49 ≤ n ∧ n ≤ 55
  · rw [if_pos c4] at h ⊢
    obtain ⟨u, h1, h2, h3⟩ := segment_places (n - 49).toNat (by omega)
    rw [h2] at h
    cases h
    rw [h1]
    exact hus u h3
  rw [if_neg c4] at h ⊢
  by_cases c5 : n = 58
  · rw [if_pos c5] at h ⊢; cases h; exact hus .fs_base (by decide)
  rw [if_neg c5] at h ⊢
  by_cases c6 : n = 59
  · rw [if_pos c6] at h ⊢; cases h; exact hus .gs_base (by decide)
  rw [if_neg c6] at h ⊢
  by_cases d1 : n = 64
  · rw [if_pos d1] at h; rw [if_neg (by omega), if_pos d1]; cases h; exact ⟨_, rfl, rfl, field_number (by omega) rfl⟩
  rw [if_neg d1] at h
  by_cases d2 : n = 65
  · rw [if_pos d2] at h; rw [if_neg (by omega), if_neg d1, if_pos d2]; cases h; exact ⟨_, rfl, rfl, field_number (by omega) rfl⟩
  rw [if_neg d2] at h
  by_cases d3 : n = 66
  · rw [if_pos d3] at h; rw [if_neg (by omega), if_neg d1, if_neg d2, if_pos d3]; cases h; exact ⟨_, rfl, rfl, field_number (by omega) rfl⟩
  rw [if_neg d3] at h
  rw [if_neg d1, if_neg d2, if_neg d3]
  by_cases d4 : n = -1
  · rw [if_pos d4] at h; rw [if_neg (by omega), if_neg (by omega), if_pos d4]; cases h; exact ⟨_, rfl, rfl, field_number (by omega) rfl⟩
  rw [if_neg d4] at h
  by_cases d5 : n = -2
  · rw [if_pos d5] at h; rw [if_neg (by omega), if_neg (by omega), if_neg d4, if_pos d5]; cases h; exact ⟨_, rfl, rfl, field_number (by omega) rfl⟩
  rw [if_neg d5] at h
  by_cases d6 : n = -3
  · rw [if_pos d6] at h; rw [if_neg (by omega), if_neg (by omega), if_neg d4, if_neg d5, if_pos d6]; cases h; exact ⟨_, rfl, rfl, field_number (by omega) rfl⟩
  rw [if_neg d6] at h
  by_cases d7 : n = -4
  · rw [if_pos d7] at h; rw [if_neg (by omega), if_neg (by omega), if_neg d4, if_neg d5, if_neg d6, if_pos d7]; cases h; exact ⟨_, rfl, rfl, field_number (by omega) rfl⟩
  rw [if_neg d7] at h
  by_cases d8 : n = -5
  · rw [if_pos d8] at h; rw [if_neg (by omega), if_neg (by omega), if_neg d4, if_neg d5, if_neg d6, if_neg d7, if_pos d8]; cases h; exact ⟨_, rfl, rfl, field_number (by omega) rfl⟩
  rw [if_neg d8] at h
  cases h

theorem regNumber_inj {a b : RegVal} (hk : kind a = kind b) (hn : regNumber a = regNumber b) : a = b := by
  cases a <;> cases b <;> simp [kind] at hk <;> (simp only [regNumber] at hn; rw [BitVec.eq_of_toNat_eq hn])

/-- Any two register files have values of the same types, and the same where nothing is recorded. -/
theorem dwarf_kind (a b : Regs) (n : Int) : (regPlace n = none ∧ a.getDwarf n = b.getDwarf n) ∨ ∃ v w, a.getDwarf n = .ok v ∧ b.getDwarf n = .ok w ∧ kind v = kind w ∧ ∃ q, regPlace n = some q := by
  rcases slotOf_cases n with ⟨u, h1, h2⟩ | ⟨i, h1, h3, h2⟩ | ⟨i, h1, h3, h2⟩ | ⟨i, h1, h3, h2⟩ | ⟨h1, h2⟩ | ⟨h1, h2⟩ | ⟨h1, h2⟩ |
    ⟨h1, h2⟩ | ⟨h1, h2⟩ | ⟨h1, h2⟩ | ⟨h1, h2⟩ | ⟨h1, h2⟩ | ⟨h1, h2⟩ | ⟨h1, h2⟩
  case inl =>
    right
    unfold Regs.getDwarf
    rw [h1]
    refine ⟨_, _, rfl, rfl, rfl, ?_⟩
    have key : ∀ u, (regPlace (numOf (.user u))).isSome = true := by intro u; cases u <;> rfl
    rw [← h2]
    exact Option.isSome_iff_exists.1 (key u)
  case inr.inr.inr.inr.inr.inr.inr.inr.inr.inr.inr.inr.inl =>
    left
    refine ⟨?_, by unfold Regs.getDwarf; rw [h1]⟩
    unfold regPlace
    repeat rw [if_neg (by omega)]
  case inr.inr.inr.inr.inr.inr.inr.inr.inr.inr.inr.inr.inr =>
    left
    refine ⟨?_, by unfold Regs.getDwarf; rw [h1]⟩
    unfold regPlace
    repeat rw [if_neg (by omega)]
  all_goals
    right
    unfold Regs.getDwarf
    rw [h1]
    refine ⟨_, _, rfl, rfl, rfl, ?_⟩
    unfold regPlace
    first
      | (rw [if_neg (by omega), if_pos (by omega)]; exact ⟨_, rfl⟩)
      | (rw [if_neg (by omega), if_neg (by omega), if_pos (by omega)]; exact ⟨_, rfl⟩)
      | (rw [if_neg (by omega), if_neg (by omega), if_neg (by omega), if_pos (by omega)]; exact ⟨_, rfl⟩)
      | (subst h2; exact ⟨_, rfl⟩)

theorem recorded_same {user fp : List Byte} {a b : Regs} (ha : Recorded user fp a) (hb : Recorded user fp b) : SameRegs a b := by
  intro n
  rcases dwarf_kind a b n with ⟨_, h⟩ | ⟨v, w, h1, h2, h3, ⟨isFp, off, k⟩, h4⟩
  · exact h
  · obtain ⟨v', e1, _, e3⟩ := ha n isFp off k h4
    obtain ⟨w', f1, _, f3⟩ := hb n isFp off k h4
    rw [h1] at e1
    rw [h2] at f1
    cases e1
    cases f1
    rw [h1, h2, regNumber_inj h3 (e3.trans f3.symm)]

theorem core_regs {get : GetRegs} {id : Nat} {user fp : List Byte} (h1 : get id 1 216 = .ok user) (h2 : 216 ≤ user.length) (h3 : get id 2 512 = .ok fp) (h4 : 512 ≤ fp.length) :
    getCoreRegs get id = .ok (decodeRegs user fp) := by
  unfold getCoreRegs regset NT_PRSTATUS NT_FPREGSET userSize fpSize
  rw [h1, Res.bind_ok, if_neg (by omega), if_neg (by omega), Res.bind_ok, h3, Res.bind_ok, if_neg (by omega), if_neg (by omega), Res.bind_ok]
  rfl

theorem core_regs_inv {get : GetRegs} {id : Nat} {regs : Regs} (h : getCoreRegs get id = .ok regs) : ∃ user fp, get id 1 216 = .ok user ∧ 216 ≤ user.length ∧ get id 2 512 = .ok fp ∧ 512 ≤ fp.length ∧
    regs = decodeRegs user fp := by
  unfold getCoreRegs regset NT_PRSTATUS NT_FPREGSET userSize fpSize at h
  obtain ⟨user, h1, h⟩ := Res.bind_eq_ok.1 h
  obtain ⟨u', h1, h5⟩ := Res.bind_eq_ok.1 h1
  obtain ⟨fp, h2, h⟩ := Res.bind_eq_ok.1 h
  obtain ⟨f', h2, h6⟩ := Res.bind_eq_ok.1 h2
  split at h5
  · cases h5
  split at h5
  · cases h5
  split at h6
  · cases h6
  split at h6
  · cases h6
  cases h5; cases h6; cases h
  exact ⟨user, fp, h1, by omega, h2, by omega, rfl⟩

/-! ### All threads -/

section
variable (get : GetRegs) (p : Proc) (maxframes : Int) (name : Nat → Option (List Char))

/-- What there is for an lwp before the threads are looked at. -/
def Found (l : Lwp) : Prop := l.info = none ∧ l.name = name l.id ∧ ∃ regs, getCoreRegs get l.id = .ok regs ∧ unwindThread p maxframes regs = (l.frames, .ok ())

theorem found_one {a b : Lwp} (ha : Found get p maxframes name a) (hb : Found get p maxframes name b) (h : a.id = b.id) : a = b := by
  obtain ⟨a1, a2, r, a3, a4⟩ := ha
  obtain ⟨b1, b2, q, b3, b4⟩ := hb
  rw [h] at a3 a2
  rw [a3] at b3
  cases b3
  rw [a4] at b4
  cases a; cases b
  simp_all

/-- Reading the registers and unwinding do not end the program, nor throw anything that is not caught. -/
def Contained (ids : List Nat) : Prop := ∀ id ∈ ids, (getCoreRegs get id = .exc ∨ ∃ regs, getCoreRegs get id = .ok regs ∧ ∃ o, reported p maxframes regs = .ok o)

theorem reported_some {regs : Regs} {fs : List Frame} : reported p maxframes regs = .ok (some fs) ↔ unwindThread p maxframes regs = (fs, .ok ()) := by
  unfold reported
  generalize unwindThread p maxframes regs = r
  obtain ⟨gs, o⟩ := r
  cases o <;> simp

theorem add_lwps : ∀ (ids : List Nat) (m : OMap Lwp), Contained get p maxframes ids → OMap.Sorted m → (∀ k l, (k, l) ∈ m → l.id = k ∧ Found get p maxframes name l) →
    ∃ m', addLwps get p maxframes name ids m = .ok m' ∧ OMap.Sorted m' ∧ ∀ k l, (k, l) ∈ m' ↔ (k, l) ∈ m ∨ (k ∈ ids ∧ l.id = k ∧ Found get p maxframes name l)
  | [], m, _, hs, _ => ⟨m, rfl, hs, fun k l => by simp⟩
  | id :: ids, m, hc, hs, hm => by
    have hc' : Contained get p maxframes ids := fun x hx => hc x (.tail _ hx)
    have skip : addLwp get p maxframes name id m = .ok m → (∀ l, l.id = id → ¬Found get p maxframes name l) →
        ∃ m', addLwps get p maxframes name (id :: ids) m = .ok m' ∧ OMap.Sorted m' ∧ ∀ k l, (k, l) ∈ m' ↔ (k, l) ∈ m ∨ (k ∈ id :: ids ∧ l.id = k ∧ Found get p maxframes name l) := by
      intro e hn
      obtain ⟨m', h1, h2, h3⟩ := add_lwps ids m hc' hs hm
      refine ⟨m', by rw [addLwps, e]; exact h1, h2, fun k l => ?_⟩
      rw [h3 k l]
      constructor
      · rintro (h | ⟨h, h'⟩)
        · exact .inl h
        · exact .inr ⟨.tail _ h, h'⟩
      · rintro (h | ⟨h, h', h''⟩)
        · exact .inl h
        · rcases List.mem_cons.1 h with h | h
          · exact absurd h'' (hn l (by rw [h', h]))
          · exact .inr ⟨h, h', h''⟩
    rcases hc id (.head _) with he | ⟨regs, hr, o, ho⟩
    · refine skip (by unfold addLwp; rw [he]) ?_
      rintro l hl ⟨_, _, regs, k, _⟩
      rw [hl, he] at k; cases k
    · cases o with
      | none =>
        refine skip (by unfold addLwp; rw [hr]; simp only; rw [ho]; rfl) ?_
        rintro l hl ⟨_, _, regs', k, k'⟩
        rw [hl, hr] at k
        cases k
        have := (reported_some p maxframes).2 k'
        rw [ho] at this; cases this
      | some fs =>
        have hun := (reported_some p maxframes).1 ho
        have hnew : Found get p maxframes name ⟨id, fs, name id, none⟩ := ⟨rfl, rfl, regs, hr, hun⟩
        have e : addLwp get p maxframes name id m = .ok (OMap.emplace id ⟨id, fs, name id, none⟩ m) := by
          unfold addLwp; rw [hr]; simp only; rw [ho]; rfl
        have hmem : ∀ k l, (k, l) ∈ OMap.emplace id ⟨id, fs, name id, none⟩ m ↔ (k, l) ∈ m ∨ (k, l) = (id, ⟨id, fs, name id, none⟩) := by
          intro k l
          constructor
          · intro h
            rcases OMap.mem_emplace h with h | h
            · exact .inr h
            · exact .inl h
          · rintro (h | h)
            · exact OMap.mem_emplace_of_mem h
            · rw [h]
              obtain ⟨⟨k', l'⟩, h1, h2⟩ := OMap.key_emplace id (⟨id, fs, name id, none⟩ : Lwp) m
              simp only at h2
              subst h2
              rcases OMap.mem_emplace h1 with h3 | h3
              · rw [← h3]; exact h1
              · obtain ⟨e1, e2⟩ := hm _ _ h3
                have := found_one get p maxframes name e2 hnew e1
                rw [this] at h1; exact h1
        obtain ⟨m', h1, h2, h3⟩ := add_lwps ids _ hc' (OMap.sorted_emplace (k := id) (v := (⟨id, fs, name id, none⟩ : Lwp)) hs) (fun k l h => by
          rcases (hmem k l).1 h with h | h
          · exact hm k l h
          · cases h; exact ⟨rfl, hnew⟩)
        refine ⟨m', by rw [addLwps, e]; exact h1, h2, fun k l => ?_⟩
        rw [h3 k l, hmem k l]
        constructor
        · rintro ((h | h) | ⟨h, h'⟩)
          · exact .inl h
          · cases h; exact .inr ⟨.head _, rfl, hnew⟩
          · exact .inr ⟨.tail _ h, h'⟩
        · rintro (h | ⟨h, h', h''⟩)
          · exact .inl (.inl h)
          · rcases List.mem_cons.1 h with h | h
            · have := found_one get p maxframes name h'' hnew (by rw [h', h])
              exact .inl (.inr (by rw [this, h]))
            · exact .inr ⟨h, h', h''⟩

/-- `getRegs` gives bytes or throws, and no exception but `Exception` comes of unwinding. -/
theorem contained_of {ids : List Nat} (hg : ∀ id ∈ ids, ∀ c n, (∃ bs, get id c n = .ok bs) ∨ get id c n = .exc) (hr : ∀ id ∈ ids, ∀ user fp regs, get id 1 216 = .ok user → get id 2 512 = .ok fp →
    Recorded user fp regs → ∃ o, reported p maxframes regs = .ok o) : Contained get p maxframes ids := by
  intro id hid
  have all : ∀ c n, (∃ bs, regset get id c n = .ok bs) ∨ regset get id c n = .exc := by
    intro c n
    unfold regset
    rcases hg id hid c n with ⟨bs, h⟩ | h
    · rw [h, Res.bind_ok]
      split
      · exact .inr rfl
      · split
        · exact .inr rfl
        · exact .inl ⟨bs, rfl⟩
    · rw [h]; exact .inr rfl
  cases hc : getCoreRegs get id with
  | ok regs =>
    right
    obtain ⟨user, fp, k1, k2, k3, k4, rfl⟩ := core_regs_inv hc
    exact ⟨_, rfl, hr id hid user fp _ k1 k3 (recorded_decode k2 k4)⟩
  | exc => exact .inl rfl
  | ub =>
    exfalso
    unfold getCoreRegs at hc
    rcases all NT_PRSTATUS userSize with ⟨a, h⟩ | h
    · rw [h, Res.bind_ok] at hc
      rcases all NT_FPREGSET fpSize with ⟨b, h⟩ | h
      · rw [h, Res.bind_ok] at hc; cases hc
      · rw [h] at hc; cases hc
    · rw [h] at hc; cases hc
  | abort =>
    exfalso
    unfold getCoreRegs at hc
    rcases all NT_PRSTATUS userSize with ⟨a, h⟩ | h
    · rw [h, Res.bind_ok] at hc
      rcases all NT_FPREGSET fpSize with ⟨b, h⟩ | h
      · rw [h, Res.bind_ok] at hc; cases hc
      · rw [h] at hc; cases hc
    · rw [h] at hc; cases hc

/-! ### Threads -/

/-- Everything but the thread. -/
def sameBut (a b : Lwp) : Prop := a.id = b.id ∧ a.frames = b.frames ∧ a.name = b.name

theorem threadOn_snoc {is : List (Option Info)} {id : Nat} {o : Option Info} (h : ThreadOn is id o) (i : Option Info) :
    ThreadOn (is ++ [i]) id (if (i.any (fun i => i.lid == id)) = true then i else o) := by
  cases i with
  | none =>
    simp only [Option.any_none, Bool.false_eq_true, if_false]
    cases o with
    | none =>
      intro j hj
      rcases List.mem_append.1 hj with hj | hj
      · exact h j hj
      · simp at hj
    | some q =>
      obtain ⟨a, b, h1, h2, h3⟩ := h
      refine ⟨a, b ++ [none], by rw [h1]; simp, h2, ?_⟩
      intro j hj
      rcases List.mem_append.1 hj with hj | hj
      · exact h3 j hj
      · simp at hj
  | some i =>
    simp only [Option.any_some, beq_iff_eq]
    by_cases hi : i.lid = id
    · rw [if_pos hi]
      exact ⟨is, [], rfl, hi, fun j hj => nomatch hj⟩
    · rw [if_neg hi]
      cases o with
      | none =>
        intro j hj
        rcases List.mem_append.1 hj with hj | hj
        · exact h j hj
        · simp only [List.mem_singleton, Option.some.injEq] at hj
          rw [hj]; exact hi
      | some q =>
        obtain ⟨a, b, h1, h2, h3⟩ := h
        refine ⟨a, b ++ [some i], by rw [h1]; simp, h2, ?_⟩
        intro j hj
        rcases List.mem_append.1 hj with hj | hj
        · exact h3 j hj
        · simp only [List.mem_singleton, Option.some.injEq] at hj
          rw [hj]; exact hi

theorem lookup_mem {m : OMap Lwp} (hs : OMap.Sorted m) {k : Nat} {l : Lwp} (h : (k, l) ∈ m) : OMap.lookup k m = some l := by
  cases hl : OMap.lookup k m with
  | none =>
    unfold OMap.lookup at hl
    rw [Option.map_eq_none_iff, List.find?_eq_none] at hl
    have := hl _ h
    simp at this
  | some l' =>
    have := OMap.sorted_inj hs (OMap.lookup_some hl) h rfl
    cases this; rfl

theorem add_info {m : OMap Lwp} (hs : OMap.Sorted m) (i : Option Info) : OMap.Sorted (addInfo m i) ∧
    (∀ k l, (k, l) ∈ addInfo m i → ∃ l0, (k, l0) ∈ m ∧ sameBut l l0 ∧ l.info = (if (i.any (fun i => i.lid == k)) = true then i else l0.info)) ∧
    (∀ k l0, (k, l0) ∈ m → ∃ l, (k, l) ∈ addInfo m i) := by
  have triv : ∀ q : Option Info, (∀ k l, (k, l) ∈ m → (q.any (fun i => i.lid == k)) = false) → OMap.Sorted m ∧ (∀ k l, (k, l) ∈ m → ∃ l0, (k, l0) ∈ m ∧ sameBut l l0 ∧ l.info = (if (q.any (fun i => i.lid == k)) = true then q else l0.info)) ∧
      (∀ k l0, (k, l0) ∈ m → ∃ l, (k, l) ∈ m) := by
    intro q hq
    refine ⟨hs, fun k l h => ⟨l, h, ⟨rfl, rfl, rfl⟩, ?_⟩, fun k l h => ⟨l, h⟩⟩
    rw [hq k l h]; rfl
  cases i with
  | none => exact triv none (fun _ _ _ => rfl)
  | some i =>
    cases hl : OMap.lookup i.lid m with
    | none =>
      have e : addInfo m (some i) = m := by unfold addInfo; simp only [hl]
      rw [e]
      refine triv (some i) (fun k l h => ?_)
      simp only [Option.any_some, beq_eq_false_iff_ne]
      intro e
      have := lookup_mem hs h
      rw [← e, hl] at this; cases this
    | some l0 =>
      have e : addInfo m (some i) = OMap.assign i.lid { l0 with info := some i } m := by unfold addInfo; simp only [hl]
      rw [e]
      refine ⟨OMap.sorted_assign hs, fun k l h => ?_, fun k l1 h => ?_⟩
      · rcases (OMap.mem_assign hs).1 h with h | ⟨h, hne⟩
        · cases h
          refine ⟨l0, OMap.lookup_some hl, ⟨rfl, rfl, rfl⟩, ?_⟩
          simp
        · refine ⟨l, h, ⟨rfl, rfl, rfl⟩, ?_⟩
          have : i.lid ≠ k := fun e => hne e.symm
          simp only [Option.any_some, beq_iff_eq]
          rw [if_neg this]
      · by_cases e : k = i.lid
        · subst e
          exact ⟨_, (OMap.mem_assign hs).2 (.inl rfl)⟩
        · exact ⟨l1, (OMap.mem_assign hs).2 (.inr ⟨h, e⟩)⟩

theorem add_infos : ∀ (is pre : List (Option Info)) (m0 m : OMap Lwp), OMap.Sorted m → (∀ k l, (k, l) ∈ m → ∃ l0, (k, l0) ∈ m0 ∧ sameBut l l0 ∧ ThreadOn pre k l.info) → (∀ k l0, (k, l0) ∈ m0 → ∃ l, (k, l) ∈ m) →
    OMap.Sorted (is.foldl addInfo m) ∧ (∀ k l, (k, l) ∈ is.foldl addInfo m → ∃ l0, (k, l0) ∈ m0 ∧ sameBut l l0 ∧ ThreadOn (pre ++ is) k l.info) ∧ (∀ k l0, (k, l0) ∈ m0 → ∃ l, (k, l) ∈ is.foldl addInfo m)
  | [], pre, m0, m, hs, h1, h2 => by rw [List.append_nil]; exact ⟨hs, h1, h2⟩
  | i :: is, pre, m0, m, hs, h1, h2 => by
    obtain ⟨k1, k2, k3⟩ := add_info hs i
    rw [List.foldl_cons, show pre ++ i :: is = (pre ++ [i]) ++ is by simp]
    refine add_infos is (pre ++ [i]) m0 (addInfo m i) k1 ?_ ?_
    · intro k l h
      obtain ⟨l1, e1, e2, e3⟩ := k2 k l h
      obtain ⟨l0, f1, f2, f3⟩ := h1 k l1 e1
      refine ⟨l0, f1, ⟨e2.1.trans f2.1, e2.2.1.trans f2.2.1, e2.2.2.trans f2.2.2⟩, ?_⟩
      rw [e3]
      exact threadOn_snoc f3 i
    · intro k l0 h
      obtain ⟨l, h⟩ := h2 k l0 h
      exact k3 k l h

/-- C89. The stacks of a process are those of its lwps: each is what unwinding gives from the registers read for this lwp, with the name of this lwp, and what the thread library says of the thread on it. No lwp is left out
unless its registers cannot be read or unwinding throws, whatever becomes of the others. -/
theorem C89_stacks_partial (ids : List Nat) (threads : Option (List (Option Info))) (hg : ∀ id ∈ ids, ∀ c n, (∃ bs, get id c n = .ok bs) ∨ get id c n = .exc)
    (hr : ∀ id ∈ ids, ∀ user fp regs, get id 1 216 = .ok user → get id 2 512 = .ok fp → Recorded user fp regs → ∃ o, reported p maxframes regs = .ok o) :
    ∃ m, getStacks get p maxframes name ids threads = .ok m ∧ m.Pairwise (fun a b => a.1 < b.1) ∧
      (∀ k l, (k, l) ∈ m → l.id = k ∧ k ∈ ids ∧ StackOf get p maxframes name (threads.getD []) l) ∧
      (∀ id ∈ ids, ∀ user fp, get id 1 216 = .ok user → 216 ≤ user.length → get id 2 512 = .ok fp → 512 ≤ fp.length →
        (∀ regs, Recorded user fp regs → ∃ fs, unwindThread p maxframes regs = (fs, .ok ())) → ∃ l, (id, l) ∈ m) := by
  obtain ⟨m0, e1, e2, e3⟩ := add_lwps get p maxframes name ids [] (contained_of get p maxframes hg hr) .nil (fun k l h => nomatch h)
  have hin : ∀ k l, (k, l) ∈ m0 → k ∈ ids ∧ l.id = k ∧ Found get p maxframes name l := by
    intro k l h
    rcases (e3 k l).1 h with h | h
    · cases h
    · exact h
  have hall : ∀ id ∈ ids, ∀ user fp, get id 1 216 = .ok user → 216 ≤ user.length → get id 2 512 = .ok fp → 512 ≤ fp.length →
        (∀ regs, Recorded user fp regs → ∃ fs, unwindThread p maxframes regs = (fs, .ok ())) → ∃ l, (id, l) ∈ m0 := by
    intro id hid user fp k1 k2 k3 k4 k5
    obtain ⟨fs, h⟩ := k5 _ (recorded_decode k2 k4)
    exact ⟨⟨id, fs, name id, none⟩, (e3 _ _).2 (.inr ⟨hid, rfl, rfl, rfl, _, core_regs k1 k2 k3 k4, h⟩)⟩
  have hstack : ∀ is k l l0, (k, l0) ∈ m0 → sameBut l l0 → ThreadOn is k l.info → l.id = k ∧ k ∈ ids ∧ StackOf get p maxframes name is l := by
    intro is k l l0 h hsb ht
    obtain ⟨g1, g2, _, g4, regs, g5, g6⟩ := hin k l0 h
    obtain ⟨s1, s2, s3⟩ := hsb
    obtain ⟨user, fp, k1, k2, k3, k4, rfl⟩ := core_regs_inv g5
    refine ⟨s1.trans g2, g1, ?_, ?_, ?_⟩
    · rw [s1, s2]; exact ⟨user, fp, _, k1, k2, k3, k4, recorded_decode k2 k4, g6⟩
    · rw [s1, s3, g4]
    · rw [s1, g2]; exact ht
  unfold getStacks
  rw [e1, Out.bind_ok]
  cases threads with
  | none =>
    refine ⟨m0, rfl, e2, fun k l h => ?_, hall⟩
    refine hstack _ k l l h ⟨rfl, rfl, rfl⟩ ?_
    rw [(hin k l h).2.2.1]
    exact fun j hj => nomatch hj
  | some is =>
    obtain ⟨f1, f2, f3⟩ := add_infos is [] m0 m0 e2 (fun k l h => ⟨l, h, ⟨rfl, rfl, rfl⟩, by rw [(hin k l h).2.2.1]; exact fun j hj => nomatch hj⟩) (fun k l h => ⟨l, h⟩)
    refine ⟨_, rfl, f1, fun k l h => ?_, ?_⟩
    · obtain ⟨l0, g1, g2, g3⟩ := f2 k l h
      exact hstack is k l l0 g1 g2 g3
    · intro id hid user fp k1 k2 k3 k4 k5
      obtain ⟨l0, h⟩ := hall id hid user fp k1 k2 k3 k4 k5
      exact f3 id l0 h

end

/-! ### Cores -/

/-- C89, negation. An lwp whose floating point registers are not recorded has no stack, though its general registers are. -/
theorem C89_not_fp (get : GetRegs) (p : Proc) (maxframes : Int) (name : Nat → Option (List Char)) (id : Nat) (threads : Option (List (Option Info))) (user : List Byte)
    (h : get id 1 216 = .ok user) (hfp : get id 2 512 = .ok []) : getStacks get p maxframes name [id] threads = .ok [] := by
  have e : getCoreRegs get id = .exc := by
    unfold getCoreRegs regset NT_PRSTATUS NT_FPREGSET userSize fpSize
    rw [h, Res.bind_ok, hfp]
    by_cases h0 : user.length = 0
    · rw [if_pos h0]; rfl
    · rw [if_neg h0]
      by_cases h1 : user.length < 216
      · rw [if_pos h1]; rfl
      · rw [if_neg h1]; rfl
  have e2 : addLwps get p maxframes name [id] [] = .ok [] := by
    rw [addLwps, addLwp, e]; rfl
  unfold getStacks
  rw [e2, Out.bind_ok]
  cases threads with
  | none => rfl
  | some is =>
    simp only
    have : ∀ is : List (Option Info), is.foldl addInfo [] = [] := by
      intro is
      induction is with
      | nil => rfl
      | cons i is ih =>
        rw [List.foldl_cons]
        cases i <;> exact ih
    rw [this]

theorem thread_regs {t : ThreadNotes} {s : CoreNotes.St} (hst : t.status.length = 336)
    (h : ∀ size, CoreNotes.getRegs s t.id 1 size = .ok (t.gregs.take size) ∧ ∀ code, code ≠ 1 → CoreNotes.getRegs s t.id code size = .ok (((t.others.find? (fun n => n.type = code)).map (·.desc.take size)).getD [])) :
    CoreNotes.getRegs s t.id 1 216 = .ok t.gregs ∧ t.gregs.length = 216 ∧ ∀ fp, FpOf t fp → CoreNotes.getRegs s t.id 2 512 = .ok (fp.take 512) := by
  have hl : t.gregs.length = 216 := by
    unfold ThreadNotes.gregs
    rw [List.length_take, List.length_drop, hst]; rfl
  refine ⟨by rw [(h 216).1, List.take_of_length_le (by omega)], hl, ?_⟩
  rintro fp ⟨n, h1, rfl, _⟩
  rw [(h 512).2 2 (by decide), h1]; rfl

theorem recorded_take {user fp : List Byte} (h : 512 ≤ fp.length) {r : Regs} : Recorded user (fp.take 512) r ↔ Recorded user fp r := by
  have key : ∀ n isFp off w, regPlace n = some (isFp, off, w) → off + w ≤ 512 := by
    intro n isFp off w h
    have h17 : ∀ n, n < 17 → ∃ o, generalPlaces[n]? = some o ∧ o ≤ 152 := by
      intro n hn
      have : ∀ n, n < 17 → (generalPlaces[n]?.any (fun o => decide (o ≤ 152))) = true := by decide
      have h := this n hn
      rw [Option.any_eq_true] at h
      obtain ⟨o, h1, h2⟩ := h
      exact ⟨o, h1, by simpa using h2⟩
    have h7 : ∀ n, n < 7 → ∃ o, segmentPlaces[n]? = some o ∧ o ≤ 208 := by
      intro n hn
      have : ∀ n, n < 7 → (segmentPlaces[n]?.any (fun o => decide (o ≤ 208))) = true := by decide
      have h := this n hn
      rw [Option.any_eq_true] at h
      obtain ⟨o, h1, h2⟩ := h
      exact ⟨o, h1, by simpa using h2⟩
    unfold regPlace at h
    by_cases c0 : 0 ≤ n ∧ n ≤ 16
    · rw [if_pos c0] at h
      obtain ⟨o, k1, k2⟩ := h17 n.toNat (by omega)
      rw [k1] at h; cases h; omega
    rw [if_neg c0] at h
    by_cases c1 : 17 ≤ n ∧ n ≤ 32
    · rw [if_pos c1] at h; cases h; omega
    rw [if_neg c1] at h
    by_cases c2 : 33 ≤ n ∧ n ≤ 40
    · rw [if_pos c2] at h; cases h; omega
    rw [if_neg c2] at h
    by_cases c3 : 41 ≤ n ∧ n ≤ 48
    · rw [if_pos c3] at h; cases h; omega
    rw [if_neg c3] at h
    by_cases c4 : 49 ≤ n ∧ n ≤ 55
    · rw [if_pos c4] at h
      obtain ⟨o, k1, k2⟩ := h7 (n - 49).toNat (by omega)
      rw [k1] at h; cases h; omega
    rw [if_neg c4] at h
    repeat (split at h; · cases h; omega)
    cases h
  have same : ∀ n isFp off w, regPlace n = some (isFp, off, w) → ((if isFp = true then fp.take 512 else user).drop off).take w = ((if isFp = true then fp else user).drop off).take w := by
    intro n isFp off w hp
    cases isFp with
    | false => rfl
    | true =>
      simp only [if_true]
      rw [List.drop_take, List.take_take, Nat.min_eq_left]
      have := key n true off w hp
      omega
  constructor
  · intro hr n isFp off w hp
    rw [← same n isFp off w hp]; exact hr n isFp off w hp
  · intro hr n isFp off w hp
    rw [same n isFp off w hp]; exact hr n isFp off w hp

/-- C89. For every core: if the registers recorded for each thread, and the memory, are those of a call chain by the registered rules, the stacks of the process are those of exactly these threads, each with the frames of
its own call chain. -/
theorem C89_core (io : Reader.Rdr) (h : io.WF) (h64 : io.size < 2 ^ 64 - 1) (segs : List (Phdr × List NoteVal)) (hs : ∀ s ∈ segs, s.2 ≠ [] ∧ SegmentHolds io.content s.1 s.2)
    (pre : List NoteVal) (ts : List ThreadNotes) (hgood : GoodCore pre ts) (hc : (segs.map (·.2)).flatten = coreNotes pre ts) (p : Proc) (maxframes : Int)
    (regs : ThreadNotes → Regs) (callers : ThreadNotes → List Regs) (hrec : ∀ t ∈ ts, ∃ fp, FpOf t fp ∧ Recorded t.gregs fp (regs t)) (hchain : ∀ t ∈ ts, Chain p true (regs t) (callers t))
    (hlen : ∀ t ∈ ts, ((callers t).length : Int) ≤ maxframes) :
    ∃ ds s m, segmentNotes io (segs.map (·.1)) = .ok ds ∧ CoreNotes.construct ds = .ok s ∧
      getStacks (CoreNotes.getRegs s) p maxframes (fun _ => none) (CoreNotes.listLWPs s) none = .ok m ∧ m.Pairwise (fun a b => a.1 < b.1) ∧
      (∀ k, (∃ l, (k, l) ∈ m) ↔ ∃ t ∈ ts, t.id = k) ∧ ∀ t ∈ ts, ∀ l, (t.id, l) ∈ m → SameAll l.frames (regs t :: callers t) := by
  obtain ⟨ds, s, h1, h2, h3, h4, h5, h6⟩ := C52_core_registers io h h64 segs hs pre ts hgood hc
  have hregs : ∀ t ∈ ts, ∃ fp : List Byte, CoreNotes.getRegs s t.id 1 216 = .ok t.gregs ∧ t.gregs.length = 216 ∧ CoreNotes.getRegs s t.id 2 512 = .ok (fp.take 512) ∧ 512 ≤ fp.length ∧ Recorded t.gregs (fp.take 512) (regs t) := by
    intro t ht
    obtain ⟨fp, k1, k2⟩ := hrec t ht
    obtain ⟨g1, g2, g3⟩ := thread_regs (hgood.status t ht) (h5 t ht)
    have : 512 ≤ fp.length := by obtain ⟨_, _, _, h⟩ := k1; exact h
    exact ⟨fp, g1, g2, g3 fp k1, this, (recorded_take this).2 k2⟩
  have hun : ∀ t ∈ ts, ∀ user fp r, CoreNotes.getRegs s t.id 1 216 = .ok user → CoreNotes.getRegs s t.id 2 512 = .ok fp → Recorded user fp r →
      ∃ fs, unwindThread p maxframes r = (fs, .ok ()) ∧ SameAll fs (regs t :: callers t) := by
    intro t ht user fp r k1 k2 k3
    obtain ⟨fp', g1, g2, g3, g4, g5⟩ := hregs t ht
    rw [g1] at k1; cases k1
    rw [g3] at k2; cases k2
    have hsame := recorded_same g5 k3
    obtain ⟨fs, e1, e2⟩ := C16_chain p maxframes r (callers t) (Chain.same hsame (hchain t ht)) (hlen t ht)
    refine ⟨fs, e1, ?_⟩
    cases e2 with
    | cons q1 q2 => exact .cons (fun n => (q1 n).trans (hsame n).symm) q2
  have hin : ∀ id ∈ CoreNotes.listLWPs s, ∃ t ∈ ts, t.id = id := fun id hid => (h4 id).1 hid
  obtain ⟨m, m1, m2, m3, m4⟩ := C89_stacks_partial (CoreNotes.getRegs s) p maxframes (fun _ => none) (CoreNotes.listLWPs s) none
    (by
      intro id hid c n
      obtain ⟨t, ht, rfl⟩ := hin id hid
      by_cases hc1 : c = 1
      · subst hc1; exact .inl ⟨_, (h5 t ht n).1⟩
      · exact .inl ⟨_, (h5 t ht n).2 c hc1⟩)
    (by
      intro id hid user fp r k1 k2 k3
      obtain ⟨t, ht, rfl⟩ := hin id hid
      obtain ⟨fs, e1, _⟩ := hun t ht user fp r k1 k2 k3
      exact ⟨_, (reported_some p maxframes).2 e1⟩)
  refine ⟨ds, s, m, h1, h2, m1, m2, fun k => ⟨?_, ?_⟩, ?_⟩
  · rintro ⟨l, hl⟩
    exact hin k (m3 k l hl).2.1
  · rintro ⟨t, ht, rfl⟩
    obtain ⟨fp, g1, g2, g3, g4, g5⟩ := hregs t ht
    exact m4 t.id ((h4 t.id).2 ⟨t, ht, rfl⟩) _ _ g1 (by omega) g3 (by rw [List.length_take]; omega) (fun r hr => by
      obtain ⟨fs, e1, _⟩ := hun t ht _ _ r g1 g3 hr
      exact ⟨fs, e1⟩)
  · intro t ht l hl
    obtain ⟨q1, _, ⟨user, fp, r, k1, _, k3, _, k5, k6⟩, _, _⟩ := m3 t.id l hl
    rw [q1] at k1 k3
    obtain ⟨fs, e1, e2⟩ := hun t ht user fp r k1 k3 k5
    rw [e1] at k6
    cases k6
    exact e2

/-! ### Names -/

theorem findIdx_sep {c : Char} {a : List Char} (h : c ∉ a) (b : List Char) : (a ++ c :: b).findIdx? (· == c) = some a.length := by
  induction a with
  | nil => simp [List.findIdx?_cons]
  | cons x a ih =>
    have hx : (x == c) = false := by
      rw [beq_eq_false_iff_ne]; exact fun k => h (by rw [k]; exact .head _)
    rw [List.cons_append, List.findIdx?_cons, hx, ih (fun k => h (.tail _ k))]
    rfl

/-- C89. The name of a thread is what is in the parentheses, whatever it contains. -/
theorem C89_name_partial {name text : List Char} (h : StatFile name text) : taskName text = some name := by
  obtain ⟨pid, more, rest, rfl, h1, h2, h3, h4, h5⟩ := h
  have hline : firstLine (pid ++ '(' :: (name ++ ')' :: (more ++ '\n' :: rest))) = pid ++ '(' :: (name ++ ')' :: more) := by
    unfold firstLine
    have : '\n' ∉ pid ++ '(' :: (name ++ ')' :: more) := by
      simp [h2, h3, h4]
    have := Spec.takeWhile_sep this rest
    rw [← this]
    congr 1
    simp
  have hr : rfind ')' (pid ++ '(' :: (name ++ ')' :: more)) = some (pid.length + 1 + name.length) := by
    unfold rfind
    have e : (pid ++ '(' :: (name ++ ')' :: more)).reverse = more.reverse ++ ')' :: (pid ++ '(' :: name).reverse := by simp
    rw [e, findIdx_sep (by simpa using h5)]
    simp only [Option.map_some, Option.some.injEq, List.length_append, List.length_cons, List.length_reverse]
    omega
  unfold taskName
  rw [hline]
  simp only
  rw [findIdx_sep h1, hr]
  simp only
  rw [if_pos (by omega), show pid.length + 1 + name.length - pid.length - 1 = name.length by omega]
  rw [show (pid ++ '(' :: (name ++ ')' :: more)).drop (pid.length + 1) = name ++ ')' :: more by
    rw [show pid ++ '(' :: (name ++ ')' :: more) = (pid ++ ['(']) ++ (name ++ ')' :: more) by simp, List.drop_left' (by simp)]]
  rw [List.take_left]

theorem line_chars {c : Char} : ∀ {t : List Char}, c ∈ firstLine t → c ≠ '\n'
  | [], h => nomatch h
  | x :: t, h => by
    unfold firstLine at h
    by_cases hx : x = '\n'
    · simp [hx] at h
    · rw [List.takeWhile_cons, if_pos (by simpa using hx)] at h
      cases h with
      | head => exact hx
      | tail _ h => exact line_chars h

/-- C89, negation. A name with a newline in it, which the kernel allows, is never given. -/
theorem C89_not_line (name text : List Char) (h : '\n' ∈ name) : taskName text ≠ some name := by
  intro e
  have hn : '\n' ∉ firstLine text := by
    intro h
    have := line_chars h
    exact this rfl
  unfold taskName at e
  simp only at e
  split at e
  · injection e with e
    rw [← e] at h
    exact hn (List.mem_of_mem_drop (List.mem_of_mem_take h))
  · cases e

theorem C89_example_name : taskName "12 (a) b (c) S 1 12\n".toList = some "a) b (c".toList := by decide +kernel

end Pstack.Props
