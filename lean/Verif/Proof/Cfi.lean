import Verif.Model.Cfi
import Verif.Spec.FrameMeaning
import Verif.Proof.DwarfReader
namespace Pstack.Dwarf
open Pstack.Reader Pstack.Spec

/-! ### table lookup -/

/-- The state of a CFI agrees with a list of entries: the decoded ones are those of the list, and the CIE map satisfies
the loader's invariant. -/
structure Agrees (P : CIEs → Prop) (fs : List FDE) (t : Lazy) : Prop where
  len : t.fdes.length = fs.length
  loaded : ∀ (i : Nat) (f : FDE), t.fdes[i]? = some (some f) → fs[i]? = some f
  cies : P t.cies

/-- The loader yields entry `i` of the list whatever has been decoded before, and keeps the invariant. -/
def Loads (P : CIEs → Prop) (load : CIEs → Nat → CIEs × Res FDE) (fs : List FDE) : Prop :=
  ∀ cies, P cies → ∀ i (hi : i < fs.length), P (load cies i).1 ∧ (load cies i).2 = .ok fs[i]

theorem ensureFDE_spec {P : CIEs → Prop} {load : CIEs → Nat → CIEs × Res FDE} {fs : List FDE} (hload : Loads P load fs)
    {t : Lazy} (ht : Agrees P fs t) (idx : Nat) (hi : idx < fs.length) :
    Agrees P fs (ensureFDE load t idx).1 ∧ (ensureFDE load t idx).2 = .ok fs[idx] ∧
    (∀ (i : Nat) (f : FDE), t.fdes[i]? = some (some f) → (ensureFDE load t idx).1.fdes[i]? = some (some f)) := by
  unfold ensureFDE
  have hlt : idx < t.fdes.length := by rw [ht.len]; exact hi
  cases hg : t.fdes[idx]? with
  | none => simp at hg; omega
  | some o =>
    cases o with
    | some f =>
      have := ht.loaded idx f hg
      rw [List.getElem?_eq_getElem hi] at this
      simp only [Option.some.injEq] at this
      exact ⟨ht, by simp [this], fun _ _ h => h⟩
    | none =>
      obtain ⟨p1, p2⟩ := hload t.cies ht.cies idx hi
      dsimp only
      generalize load t.cies idx = g at p1 p2 ⊢
      obtain ⟨cies, r⟩ := g
      simp only at p1 p2
      subst p2
      dsimp only
      refine ⟨⟨by simp [ht.len], ?_, p1⟩, rfl, ?_⟩
      · intro i g hg'
        rw [List.getElem?_set] at hg'
        split at hg'
        · rename_i h; subst h
          simp at hg'; rw [← hg', List.getElem?_eq_getElem hi]
        · exact ht.loaded i g hg'
      · intro i f hf
        rw [List.getElem?_set]
        split
        · rename_i h; subst h; rw [hg] at hf; simp at hf
        · exact hf

theorem find?_eq_none_of {fs : List FDE} {addr : Nat} (h : ∀ i (hi : i < fs.length), ¬ Covers addr fs[i]) :
    fs.find? (fun f => decide (Covers addr f)) = none := by
  rw [List.find?_eq_none]
  intro f hf
  obtain ⟨i, hi, rfl⟩ := List.mem_iff_getElem.1 hf
  simpa using h i hi

theorem find?_eq_some_of {fs : List FDE} {addr : Nat} {i : Nat} (hi : i < fs.length) (hc : Covers addr fs[i])
    (h : ∀ j (hj : j < fs.length), j < i → ¬ Covers addr fs[j]) :
    fs.find? (fun f => decide (Covers addr f)) = some fs[i] := by
  rw [List.find?_eq_some_iff_getElem]
  exact ⟨by simpa using hc, i, hi, rfl, fun j hj => by simpa using h j (by omega) hj⟩

theorem findLoop_spec {P : CIEs → Prop} {load : CIEs → Nat → CIEs × Res FDE} {fs : List FDE} (hload : Loads P load fs)
    (hd : Disjoint fs) (addr : Nat) :
    ∀ (n : Nat) (t : Lazy) (start stop : Nat), n = stop - start → Agrees P fs t →
      stop ≤ fs.length →
      (∀ i (hi : i < fs.length), i < start → ¬ Covers addr fs[i]) →
      (∀ i (hi : i < fs.length), stop ≤ i → ¬ Covers addr fs[i]) →
      (findLoop load addr t start stop).2 = .ok (fs.find? (fun f => decide (Covers addr f))) := by
  intro n
  induction n using Nat.strongRecOn with
  | ind n ih =>
    intro t start stop hn ht hstop hlo hhi
    rw [findLoop]
    by_cases hlt : start < stop
    · rw [dif_pos hlt]
      generalize hm : start + (stop - start) / 2 = mid
      have hmid : start ≤ mid ∧ mid < stop := by omega
      have hmf : mid < fs.length := by omega
      obtain ⟨e1, e3', -⟩ := ensureFDE_spec hload ht mid hmf
      dsimp only
      generalize ensureFDE load t mid = g at e1 e3' ⊢
      obtain ⟨t', r⟩ := g
      simp only at e1 e3'
      subst e3'
      dsimp only
      have hnw : (fs[mid].iloc + fs[mid].irange).toNat = fs[mid].iloc.toNat + fs[mid].irange.toNat := by
        rw [BitVec.toNat_add]
        exact Nat.mod_eq_of_lt (hd.1 _ (List.getElem_mem hmf))
      by_cases hle : fs[mid].iloc.toNat ≤ addr
      · rw [if_pos hle, hnw]
        by_cases hin : addr < fs[mid].iloc.toNat + fs[mid].irange.toNat
        · rw [if_pos hin]
          dsimp only
          rw [find?_eq_some_of hmf ⟨hle, hin⟩]
          intro j hj hjm hc
          have := hd.2 j mid hj hmf hjm
          have := hc.2
          omega
        · rw [if_neg hin]
          refine ih (stop - (mid + 1)) (by omega) t' (mid + 1) stop rfl e1 hstop ?_ hhi
          intro i hi him hc
          by_cases hi2 : i = mid
          · subst hi2; exact hin hc.2
          · have := hd.2 i mid hi hmf (by omega)
            have := hc.2
            omega
      · rw [if_neg hle]
        refine ih (mid - start) (by omega) t' start mid rfl e1 (by omega) hlo ?_
        intro i hi him hc
        by_cases hi2 : i = mid
        · subst hi2; exact hle hc.1
        · have := hd.2 mid i hmf hi (by omega)
          have := hc.1
          omega
    · rw [dif_neg hlt]
      dsimp only
      rw [find?_eq_none_of]
      intro i hi
      by_cases h : i < start
      · exact hlo i hi h
      · exact hhi i hi (by omega)

/-- The state stays in agreement and decoded entries stay, for any table (sorted or not). -/
theorem findLoop_agrees {P : CIEs → Prop} {load : CIEs → Nat → CIEs × Res FDE} {fs : List FDE} (hload : Loads P load fs)
    (addr : Nat) :
    ∀ (n : Nat) (t : Lazy) (start stop : Nat), n = stop - start → Agrees P fs t → stop ≤ fs.length →
      Agrees P fs (findLoop load addr t start stop).1 ∧
      (∀ (i : Nat) (f : FDE), t.fdes[i]? = some (some f) → (findLoop load addr t start stop).1.fdes[i]? = some (some f)) := by
  intro n
  induction n using Nat.strongRecOn with
  | ind n ih =>
    intro t start stop hn ht hstop
    rw [findLoop]
    by_cases hlt : start < stop
    · rw [dif_pos hlt]
      generalize hm : start + (stop - start) / 2 = mid
      have hmid : start ≤ mid ∧ mid < stop := by omega
      have hmf : mid < fs.length := by omega
      obtain ⟨e1, e3', e4⟩ := ensureFDE_spec hload ht mid hmf
      dsimp only
      generalize ensureFDE load t mid = g at e1 e3' e4 ⊢
      obtain ⟨t', r⟩ := g
      simp only at e1 e3' e4
      subst e3'
      dsimp only
      split
      · split
        · exact ⟨e1, e4⟩
        · obtain ⟨a, b⟩ := ih (stop - (mid + 1)) (by omega) t' (mid + 1) stop rfl e1 hstop
          exact ⟨a, fun i f h => b i f (e4 i f h)⟩
      · obtain ⟨a, b⟩ := ih (mid - start) (by omega) t' start mid rfl e1 (by omega)
        exact ⟨a, fun i f h => b i f (e4 i f h)⟩
    · rw [dif_neg hlt]
      exact ⟨ht, fun _ _ h => h⟩

/-- The answer depends on the entries only, not on which have been decoded: two states in agreement with the same list
give the same answer, for any list (sorted or not). -/
theorem findLoop_indep {P P' : CIEs → Prop} {load load' : CIEs → Nat → CIEs × Res FDE} {fs : List FDE}
    (hload : Loads P load fs) (hload' : Loads P' load' fs) (addr : Nat) :
    ∀ (n : Nat) (t t' : Lazy) (start stop : Nat), n = stop - start → Agrees P fs t → Agrees P' fs t' → stop ≤ fs.length →
      (findLoop load addr t start stop).2 = (findLoop load' addr t' start stop).2 := by
  intro n
  induction n using Nat.strongRecOn with
  | ind n ih =>
    intro t t' start stop hn ht ht' hstop
    rw [findLoop, findLoop]
    by_cases hlt : start < stop
    · rw [dif_pos hlt, dif_pos hlt]
      generalize hm : start + (stop - start) / 2 = mid
      have hmid : start ≤ mid ∧ mid < stop := by omega
      have hmf : mid < fs.length := by omega
      obtain ⟨e1, e3, -⟩ := ensureFDE_spec hload ht mid hmf
      obtain ⟨e1', e3', -⟩ := ensureFDE_spec hload' ht' mid hmf
      dsimp only
      generalize ensureFDE load t mid = g at e1 e3 ⊢
      generalize ensureFDE load' t' mid = g' at e1' e3' ⊢
      obtain ⟨s, r⟩ := g
      obtain ⟨s', r'⟩ := g'
      simp only at e1 e3 e1' e3'
      subst e3 e3'
      dsimp only
      split
      · split
        · rfl
        · exact ih (stop - (mid + 1)) (by omega) s s' (mid + 1) stop rfl e1 e1' hstop
      · exact ih (mid - start) (by omega) s s' start mid rfl e1 e1' (by omega)
    · rw [dif_neg hlt, dif_neg hlt]

/-- Whatever the table, an answer is an entry of the table that covers the address (ends not wrapping). -/
theorem findLoop_sound {P : CIEs → Prop} {load : CIEs → Nat → CIEs × Res FDE} {fs : List FDE} (hload : Loads P load fs)
    (addr : Nat) (hw : ∀ f ∈ fs, f.iloc.toNat + f.irange.toNat < 2 ^ 64) :
    ∀ (n : Nat) (t : Lazy) (start stop : Nat), n = stop - start → stop ≤ fs.length → Agrees P fs t →
      ∀ f, (findLoop load addr t start stop).2 = .ok (some f) → Covers addr f ∧ f ∈ fs := by
  intro n
  induction n using Nat.strongRecOn with
  | ind n ih =>
    intro t start stop hn hst ht f hf
    rw [findLoop] at hf
    by_cases hlt : start < stop
    · rw [dif_pos hlt] at hf
      generalize hm : start + (stop - start) / 2 = mid at hf
      have hmid : start ≤ mid ∧ mid < stop := by omega
      have hmf : mid < fs.length := by omega
      obtain ⟨e1, e3', -⟩ := ensureFDE_spec hload ht mid hmf
      dsimp only at hf
      generalize ensureFDE load t mid = g at e1 e3' hf
      obtain ⟨t', r⟩ := g
      simp only at e1 e3'
      subst e3'
      dsimp only at hf
      by_cases hle : fs[mid].iloc.toNat ≤ addr
      · rw [if_pos hle] at hf
        by_cases hin : addr < (fs[mid].iloc + fs[mid].irange).toNat
        · rw [if_pos hin] at hf
          simp only [Res.ok.injEq, Option.some.injEq] at hf
          subst hf
          have hmem := List.getElem_mem hmf
          rw [BitVec.toNat_add, Nat.mod_eq_of_lt (hw _ hmem)] at hin
          exact ⟨⟨hle, hin⟩, hmem⟩
        · rw [if_neg hin] at hf
          exact ih (stop - (mid + 1)) (by omega) t' (mid + 1) stop rfl (by omega) e1 f hf
      · rw [if_neg hle] at hf
        exact ih (mid - start) (by omega) t' start mid rfl (by omega) e1 f hf
    · rw [dif_neg hlt] at hf; simp at hf

/-- On a table with every entry decoded the loader is never used. -/
theorem findLoop_full (load load' : CIEs → Nat → CIEs × Res FDE) (addr : Nat) (t : Lazy)
    (ht : ∀ (i : Nat), i < t.fdes.length → ∃ f, t.fdes[i]? = some (some f)) :
    ∀ (n : Nat) (start stop : Nat), n = stop - start → stop ≤ t.fdes.length →
      findLoop load addr t start stop = findLoop load' addr t start stop ∧ (findLoop load addr t start stop).1 = t := by
  intro n
  induction n using Nat.strongRecOn with
  | ind n ih =>
    intro start stop hn hstop
    rw [findLoop, findLoop]
    by_cases hlt : start < stop
    · rw [dif_pos hlt, dif_pos hlt]
      generalize hm : start + (stop - start) / 2 = mid
      have hmid : start ≤ mid ∧ mid < stop := by omega
      obtain ⟨f, hf⟩ := ht mid (by omega)
      have e : ∀ l, ensureFDE l t mid = (t, .ok f) := by intro l; unfold ensureFDE; rw [hf]
      dsimp only
      rw [e, e]
      dsimp only
      split
      · split
        · exact ⟨rfl, rfl⟩
        · exact ih (stop - (mid + 1)) (by omega) (mid + 1) stop rfl hstop
      · exact ih (mid - start) (by omega) start mid rfl (by omega)
    · rw [dif_neg hlt, dif_neg hlt]; exact ⟨rfl, rfl⟩

theorem eagerTable_full (fs : List FDE) : ∀ (i : Nat), i < (eagerTable fs).fdes.length →
    ∃ f, (eagerTable fs).fdes[i]? = some (some f) := by
  intro i hi
  simp only [eagerTable, List.length_map] at hi
  exact ⟨fs[i], by simp [eagerTable, hi]⟩

theorem findFDE_eager (load load' : CIEs → Nat → CIEs × Res FDE) (fs : List FDE) (addr : Nat) :
    findFDE load (eagerTable fs) addr = findFDE load' (eagerTable fs) addr :=
  (findLoop_full load load' addr _ (eagerTable_full fs) _ 0 _ rfl (Nat.le_refl _)).1

/-- A loader that has the entries at hand. -/
def listLoad (fs : List FDE) : CIEs → Nat → CIEs × Res FDE := fun c i =>
  (c, match fs[i]? with | some f => .ok f | none => .ub)

theorem listLoad_loads (fs : List FDE) : Loads (fun _ => True) (listLoad fs) fs := by
  intro c _ i hi
  refine ⟨trivial, ?_⟩
  simp only [listLoad, List.getElem?_eq_getElem hi]

theorem eagerTable_agrees (fs : List FDE) : Agrees (fun _ => True) fs (eagerTable fs) := by
  refine ⟨by simp [eagerTable], ?_, trivial⟩
  intro i f h
  simp only [eagerTable, List.getElem?_map, Option.map_eq_some_iff] at h
  obtain ⟨a, h1, h2⟩ := h
  simp at h2; subst h2; exact h1

theorem lazyTable_agrees (P : CIEs → Prop) (h0 : P []) (fs : List FDE) : Agrees P fs (lazyTable fs.length) := by
  refine ⟨by simp [lazyTable], ?_, h0⟩
  intro i f h
  simp only [lazyTable, List.getElem?_replicate] at h
  split at h <;> simp at h

theorem findFDEs_indep {P P' : CIEs → Prop} {load load' : CIEs → Nat → CIEs × Res FDE} {fs : List FDE}
    (hload : Loads P load fs) (hload' : Loads P' load' fs) (as : List Nat) : ∀ t t', Agrees P fs t → Agrees P' fs t' →
      (findFDEs load t as).2 = (findFDEs load' t' as).2 := by
  induction as with
  | nil => intro t t' _ _; rfl
  | cons a as ih =>
    intro t t' ht ht'
    have hl : t.fdes.length = t'.fdes.length := by rw [ht.len, ht'.len]
    have h1 := findLoop_agrees hload a _ t 0 t.fdes.length rfl ht (by rw [ht.len]; exact Nat.le_refl _)
    have h1' := findLoop_agrees hload' a _ t' 0 t'.fdes.length rfl ht' (by rw [ht'.len]; exact Nat.le_refl _)
    have h2 := findLoop_indep hload hload' a _ t t' 0 t.fdes.length rfl ht ht' (by rw [ht.len]; exact Nat.le_refl _)
    simp only [findFDEs, findFDE]
    rw [ih _ _ h1.1 h1'.1, h2, hl]

theorem findFDEs_eager (load load' : CIEs → Nat → CIEs × Res FDE) (fs : List FDE) (as : List Nat) :
    findFDEs load (eagerTable fs) as = findFDEs load' (eagerTable fs) as ∧
    (findFDEs load (eagerTable fs) as).1 = eagerTable fs := by
  induction as with
  | nil => exact ⟨rfl, rfl⟩
  | cons a as ih =>
    have h1 := findLoop_full load load' a _ (eagerTable_full fs) _ 0 _ rfl (Nat.le_refl _)
    simp only [findFDEs, findFDE]
    rw [← h1.1]
    rw [h1.2]
    exact ⟨by rw [ih.1], ih.2⟩

theorem findFDEs_agrees {P : CIEs → Prop} {load : CIEs → Nat → CIEs × Res FDE} {fs : List FDE} (hload : Loads P load fs)
    (as : List Nat) : ∀ t, Agrees P fs t → Agrees P fs (findFDEs load t as).1 ∧
      ∀ (i : Nat) (f : FDE), t.fdes[i]? = some (some f) → (findFDEs load t as).1.fdes[i]? = some (some f) := by
  induction as with
  | nil => intro t ht; exact ⟨ht, fun _ _ h => h⟩
  | cons a as ih =>
    intro t ht
    have h1 := findLoop_agrees hload a _ t 0 t.fdes.length rfl ht (by rw [ht.len]; exact Nat.le_refl _)
    obtain ⟨h3, h4⟩ := ih _ h1.1
    simp only [findFDEs, findFDE]
    exact ⟨h3, fun i f h => h4 i f (h1.2 i f h)⟩

theorem ensureFDEs_spec {P : CIEs → Prop} {load : CIEs → Nat → CIEs × Res FDE} {fs : List FDE} (hload : Loads P load fs) :
    ∀ (n i : Nat) (t : Lazy), Agrees P fs t → i + n = fs.length →
      (∀ (j : Nat) (hj : j < fs.length), j < i → t.fdes[j]? = some (some fs[j])) →
      (ensureFDEs load t i n).2 = .ok () ∧ (ensureFDEs load t i n).1.fdes = fs.map some := by
  intro n
  induction n with
  | zero =>
    intro i t ht hi hpre
    refine ⟨rfl, ?_⟩
    simp only [ensureFDEs]
    apply List.ext_getElem?
    intro j
    by_cases hj : j < fs.length
    · rw [hpre j hj (by omega)]; simp [hj]
    · rw [List.getElem?_eq_none (by rw [ht.len]; omega), List.getElem?_eq_none (by simp; omega)]
  | succ n ih =>
    intro i t ht hi hpre
    have hil : i < fs.length := by omega
    obtain ⟨e1, e2, e3⟩ := ensureFDE_spec hload ht i hil
    have e4 : (ensureFDE load t i).1.fdes[i]? = some (some fs[i]) := by
      unfold ensureFDE
      cases hg : t.fdes[i]? with
      | none => simp at hg; rw [ht.len] at hg; omega
      | some o =>
        cases o with
        | some f =>
          have := ht.loaded i f hg
          rw [List.getElem?_eq_getElem hil] at this
          dsimp only
          rw [hg, Option.some.inj this]
        | none =>
          obtain ⟨p1, p2⟩ := hload t.cies ht.cies i hil
          dsimp only
          generalize load t.cies i = g at p1 p2 ⊢
          obtain ⟨cies, r⟩ := g
          simp only at p2
          subst p2
          dsimp only
          rw [List.getElem?_set]; simp [ht.len, hil]
    rw [ensureFDEs]
    generalize ensureFDE load t i = g at e1 e2 e3 e4 ⊢
    obtain ⟨t', r⟩ := g
    simp only at e1 e2 e3 e4
    subst e2
    dsimp only
    refine ih (i + 1) t' e1 (by omega) ?_
    intro j hj hji
    by_cases h : j = i
    · subst h; exact e4
    · exact e3 j _ (hpre j hj (by omega))

end Pstack.Dwarf
namespace Pstack.Dwarf
open Pstack.Reader Pstack.Spec

/-! ### encoded addresses -/

theorem enc_nibbles (a b : Nat) (ha : a < 16) (hb : b < 8) (ind : Bool) :
    let e := BitVec.ofNat 8 (a + 16 * b + (if ind then 128 else 0))
    (e &&& 0x0f#8).toNat = a ∧ (e &&& 0x70#8).toNat = 16 * b ∧ decide (e &&& 0x80#8 ≠ 0#8) = ind := by
  have : ∀ (a : Fin 16) (b : Fin 8) (ind : Bool),
      let e := BitVec.ofNat 8 (a.1 + 16 * b.1 + (if ind then 128 else 0))
      (e &&& 0x0f#8).toNat = a.1 ∧ (e &&& 0x70#8).toNat = 16 * b.1 ∧ decide (e &&& 0x80#8 ≠ 0#8) = ind := by
    decide +kernel
  exact this ⟨a, ha⟩ ⟨b, hb⟩ ind

theorem leBytes_ne_nil (n v : Nat) : leBytes (n + 1) v ≠ [] := by simp [leBytes]

theorem getuint_leBytes (d rest : List Byte) (off n v : Nat) (hn : n ≤ 8) (hv : v < 256 ^ n)
    (h : d.drop off = leBytes n v ++ rest) : getuint d n off = .ok (BitVec.ofNat 64 v, off + n) := by
  have := getuint_prefix d _ rest off h (by rw [leBytes_length]; omega)
  rwa [leBytes_length, leNat_leBytes, Nat.mod_eq_of_lt hv] at this

theorem getint_leBytes (d rest : List Byte) (off n : Nat) (v : Int) (h1 : 1 ≤ n) (hn : n ≤ 8)
    (hlo : -2 ^ (8 * n - 1) ≤ v) (hhi : v < 2 ^ (8 * n - 1))
    (h : d.drop off = leBytes n (v % 2 ^ (8 * n)).toNat ++ rest) :
    getint d n off = .ok (BitVec.ofInt 64 v, off + n) := by
  have hne : leBytes n (v % 2 ^ (8 * n)).toNat ≠ [] := by
    intro he
    have := leBytes_length n (v % 2 ^ (8 * n)).toNat
    rw [he] at this; simp at this; omega
  have := getint_prefix d _ rest off h (by rw [leBytes_length]; omega) hne
  rw [leBytes_length] at this
  rw [this]
  congr 3
  unfold leInt
  rw [leBytes_length, leNat_leBytes]
  have h256 : (256 : Nat) ^ n = 2 ^ (8 * n) := by rw [Nat.pow_mul]
  have hsplit2 : (2 : Nat) ^ (8 * n) = 2 * 2 ^ (8 * n - 1) := by
    rw [← Nat.pow_succ']; congr 1; omega
  have hc : ((2 : Int) ^ (8 * n)) = ((2 ^ (8 * n) : Nat) : Int) := by simp
  have hc1 : ((2 : Int) ^ (8 * n - 1)) = ((2 ^ (8 * n - 1) : Nat) : Int) := by simp
  rw [h256, hc]
  rw [hc1] at hlo hhi
  generalize (2 : Nat) ^ (8 * n) = P at *
  generalize (2 : Nat) ^ (8 * n - 1) = Q at *
  subst hsplit2
  have hQ : 0 < Q := by omega
  have e1 : (v % ((2 * Q : Nat) : Int)).toNat % (2 * Q) = (v % ((2 * Q : Nat) : Int)).toNat := by
    apply Nat.mod_eq_of_lt
    have := Int.emod_lt_of_pos v (show (0 : Int) < ((2 * Q : Nat) : Int) by omega)
    have := Int.emod_nonneg v (show ((2 * Q : Nat) : Int) ≠ 0 by omega)
    omega
  rw [e1]
  by_cases hv : 0 ≤ v
  · have : v % ((2 * Q : Nat) : Int) = v := Int.emod_eq_of_lt hv (by omega)
    rw [this, if_pos (by omega)]; omega
  · have : v % ((2 * Q : Nat) : Int) = v + (2 * Q : Nat) := by
      rw [← Int.add_emod_right]; exact Int.emod_eq_of_lt (by omega) (by omega)
    rw [this, if_neg (by omega)]; omega

/-- The value part of `decodeAddress`. -/
theorem fmt_decode (d rest : List Byte) (off : Nat) (f : PtrFmt) (v : Int) (hv : f.Fits v) (hw : d.length < W64)
    (h : d.drop off = f.encode v ++ rest) :
    (match f.code with
    | 0x0a => getint d 2
    | 0x0b => getint d 4
    | 0x0c => getint d 8
    | 0x02 => getuint d 2
    | 0x03 => getuint d 4
    | 0x04 => getuint d 8
    | 0x09 => getsleb128 d
    | 0x01 => getuleb128 d
    | 0x00 => getint d 4
    | _ => throwExc) off = .ok (BitVec.ofInt 64 v, off + (f.encode v).length) := by
  have hu : ∀ n, n ≤ 8 → 0 ≤ v → v < 2 ^ (8 * n) → d.drop off = leBytes n (v % 2 ^ (8 * n)).toNat ++ rest →
      getuint d n off = .ok (BitVec.ofInt 64 v, off + n) := by
    intro n hn h0 h1 h2
    rw [Int.emod_eq_of_lt h0 h1] at h2
    have hc : ((2 : Int) ^ (8 * n)) = ((2 ^ (8 * n) : Nat) : Int) := by simp
    rw [hc] at h1
    have := getuint_leBytes d rest off n v.toNat hn (by
      have h256 : (256 : Nat) ^ n = 2 ^ (8 * n) := by rw [Nat.pow_mul]
      rw [h256]; omega) h2
    rw [this]
    congr 2
    obtain ⟨k, rfl⟩ := Int.eq_ofNat_of_zero_le h0
    simp
  cases f with
  | udata2 => simpa [PtrFmt.code, PtrFmt.encode, leBytes_length] using hu 2 (by decide) hv.1 hv.2 h
  | udata4 => simpa [PtrFmt.code, PtrFmt.encode, leBytes_length] using hu 4 (by decide) hv.1 hv.2 h
  | udata8 => simpa [PtrFmt.code, PtrFmt.encode, leBytes_length] using hu 8 (by decide) hv.1 hv.2 h
  | sdata2 => simpa [PtrFmt.code, PtrFmt.encode, leBytes_length] using
      getint_leBytes d rest off 2 v (by decide) (by decide) hv.1 hv.2 h
  | sdata4 => simpa [PtrFmt.code, PtrFmt.encode, leBytes_length] using
      getint_leBytes d rest off 4 v (by decide) (by decide) hv.1 hv.2 h
  | sdata8 => simpa [PtrFmt.code, PtrFmt.encode, leBytes_length] using
      getint_leBytes d rest off 8 v (by decide) (by decide) hv.1 hv.2 h
  | uleb128 =>
    obtain ⟨h0, h1⟩ := hv
    obtain ⟨k, rfl⟩ := Int.eq_ofNat_of_zero_le h0
    have e : (BitVec.ofNat 64 k).toNat = k := by
      rw [BitVec.toNat_ofNat]; exact Nat.mod_eq_of_lt (by omega)
    have := getuleb_prefix d rest (BitVec.ofNat 64 k) off (by rw [e]; exact h) hw
    rw [e] at this
    simpa [PtrFmt.code, PtrFmt.encode] using this
  | sleb128 =>
    obtain ⟨h0, h1⟩ := hv
    have e : (BitVec.ofInt 64 v).toInt = v := by
      rw [BitVec.toInt_ofInt]
      apply Int.bmod_eq_of_le <;> omega
    have := getsleb_prefix d rest (BitVec.ofInt 64 v) off (by rw [e]; exact h) hw
    rw [e] at this
    simpa [PtrFmt.code, PtrFmt.encode] using this

theorem decodeAddress_spec (d rest : List Byte) (off sectionAddr sectionVa : Nat) (f : PtrFmt) (b : PtrBase) (ind : Bool)
    (v : Int) (hv : f.Fits v) (hw : d.length < W64) (h : d.drop off = f.encode v ++ rest) :
    decodeAddress d sectionAddr (BitVec.ofNat 8 (f.code + b.code + (if ind then 128 else 0))) sectionVa off =
      .ok ((BitVec.ofInt 64 v + BitVec.ofNat 64 (b.value (off + sectionAddr) sectionVa sectionVa), ind), off + (f.encode v).length) := by
  have hfc : f.code < 16 := by cases f <;> decide
  have hbc : b.code = 16 * (b.code / 16) ∧ b.code / 16 < 8 := by cases b <;> decide
  obtain ⟨n1, n2, n3⟩ := enc_nibbles f.code (b.code / 16) hfc hbc.2 ind
  rw [← hbc.1] at n1 n2 n3
  unfold decodeAddress
  rw [Parse.bind_ok (show getOffset off = .ok (off, off) from rfl)]
  have hraw : decodeRaw d (BitVec.ofNat 8 (f.code + b.code + (if ind then 128 else 0))) off
      = .ok (BitVec.ofInt 64 v, off + (f.encode v).length) := by
    unfold decodeRaw
    simp only [n1]
    exact fmt_decode d rest off f v hv hw h
  rw [Parse.bind_ok hraw]
  have hbase : ∀ o, applyBase (BitVec.ofNat 8 (f.code + b.code + (if ind then 128 else 0))) off sectionAddr sectionVa
      (BitVec.ofInt 64 v) o = .ok (BitVec.ofInt 64 v + BitVec.ofNat 64 (b.value (off + sectionAddr) sectionVa sectionVa), o) := by
    intro o
    unfold applyBase
    simp only [n2]
    cases b <;> simp [PtrBase.code, PtrBase.value, Parse.pure_apply]
  rw [Parse.bind_ok (hbase _), Parse.pure_apply, n3]

end Pstack.Dwarf
