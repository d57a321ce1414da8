import Verif.Props.Expr
import Verif.Model.Unwind
import Verif.Spec.Unwind
import Verif.Spec.CfaMeaning
namespace Pstack.Unwind
open Pstack.Dwarf Pstack.Arch Pstack.Expr Pstack.Spec Pstack.Props

theorem slotOf_general (r : Int) (h : 0 ≤ r ∧ r ≤ 16) : ∃ u, slotOf r = some (.user u) := by
  obtain ⟨u, h1, -⟩ := general_num r.toNat (by omega)
  refine ⟨u, ?_⟩
  unfold slotOf
  rw [if_pos h, h1]; rfl

theorem set_general (out : Regs) (r : Int) (h : 0 ≤ r ∧ r ≤ 16) (v : BitVec 64) :
    ∃ out', out.setDwarf r (.u64 v) = .ok out' ∧ out'.getDwarf r = .ok (.u64 v) ∧
      ∀ s, s ≠ r → out'.getDwarf s = out.getDwarf s := by
  obtain ⟨u, hu⟩ := slotOf_general r h
  have h1 : out.setDwarf r (.u64 v) = .ok { out with user := upd out.user u v } := by
    unfold Regs.setDwarf; rw [hu]
  refine ⟨_, h1, C19_set_get_partial out _ r _ (by simp only [NotKept]; omega) h1, ?_⟩
  intro s hs
  exact C19_set_others_partial out _ r s _ h1 hs (by simp only [MmXmm]; omega)

theorem get_general (regs : Regs) (r : Int) (h : 0 ≤ r ∧ r ≤ 16) : ∃ v, regs.getDwarf r = .ok (.u64 v) := by
  obtain ⟨u, hu⟩ := slotOf_general r h
  refine ⟨regs.user u, ?_⟩
  unfold Regs.getDwarf; rw [hu]

/-- A rule that either says nothing (or fails), or gives a general register a value. -/
def Good (p : Proc) (d : List Byte) (reloc : BitVec 64) (f : Frame) (cfa : BitVec 64) (k : Int × RegUnwind) : Prop :=
  ruleValue p d reloc f cfa k.1 k.2 = .ok none ∨ ruleValue p d reloc f cfa k.1 k.2 = .exc ∨
  ((0 ≤ k.1 ∧ k.1 ≤ 16) ∧ ∃ v, ruleValue p d reloc f cfa k.1 k.2 = .ok (some (.u64 v)))

theorem applyRules_good (p : Proc) (d : List Byte) (reloc : BitVec 64) (f : Frame) (cfa : BitVec 64)
    (l : List (Int × RegUnwind)) : ∀ out : Regs, (l.map Prod.fst).Nodup → (∀ k ∈ l, Good p d reloc f cfa k) →
    ∃ out', applyRules p d reloc f cfa out l = .ok out' ∧
      (∀ k ∈ l, ∀ v, ruleValue p d reloc f cfa k.1 k.2 = .ok (some v) → out'.getDwarf k.1 = .ok v) ∧
      (∀ r : Int, (∀ k ∈ l, k.1 = r → ruleValue p d reloc f cfa k.1 k.2 = .ok none ∨ ruleValue p d reloc f cfa k.1 k.2 = .exc) →
        out'.getDwarf r = out.getDwarf r) := by
  induction l with
  | nil => intro out _ _; exact ⟨out, rfl, by simp, by simp⟩
  | cons k l ih =>
    intro out hnd hg
    simp only [List.map_cons, List.nodup_cons] at hnd
    obtain ⟨out1, h1, h2, h3⟩ : ∃ out1, applyRule p d reloc f cfa out k = .ok out1 ∧
        (∀ v, ruleValue p d reloc f cfa k.1 k.2 = .ok (some v) → out1.getDwarf k.1 = .ok v) ∧
        (∀ r, (k.1 = r → ruleValue p d reloc f cfa k.1 k.2 = .ok none ∨ ruleValue p d reloc f cfa k.1 k.2 = .exc) →
          out1.getDwarf r = out.getDwarf r) := by
      unfold applyRule
      rcases hg k (List.mem_cons_self ..) with h | h | ⟨hk, v, h⟩
      · rw [h]; exact ⟨out, rfl, by simp, by simp⟩
      · rw [h]; exact ⟨out, rfl, by simp, by simp⟩
      · rw [h]
        obtain ⟨o, e1, e2, e3⟩ := set_general out k.1 hk v
        refine ⟨o, e1, ?_, ?_⟩
        · intro w hw; simp only [Out.ok.injEq, Option.some.injEq] at hw; subst hw; exact e2
        · intro r hr
          refine e3 r ?_
          intro he; subst he
          have := hr rfl
          simp at this
    obtain ⟨out', h4, h5, h6⟩ := ih out1 hnd.2 (fun x hx => hg x (List.mem_cons_of_mem _ hx))
    refine ⟨out', ?_, ?_, ?_⟩
    · rw [applyRules, h1]; exact h4
    · intro x hx v hv
      rcases List.mem_cons.1 hx with rfl | hx
      · rw [h6 x.1 ?_, h2 v hv]
        intro y hy he
        exact absurd (he ▸ List.mem_map_of_mem (f := Prod.fst) hy) hnd.1
      · exact h5 x hx v hv
    · intro r hr
      rw [h6 r (fun x hx he => hr x (List.mem_cons_of_mem _ hx) he), h3 r (fun he => hr k (List.mem_cons_self ..) he)]

theorem mem_entries (cf : CallFrame) (k : Int × RegUnwind) :
    k ∈ entries cf ↔ (-2 ^ 31 ≤ k.1 ∧ k.1 < 2 ^ 31) ∧ cf.registers (BitVec.ofInt 32 k.1) = some k.2 := by
  unfold entries
  rw [List.mem_filterMap]
  constructor
  · rintro ⟨i, hi, h⟩
    obtain ⟨u, hu, he⟩ := Option.map_eq_some_iff.1 h
    subst he
    have := List.mem_range.1 hi
    exact ⟨by simp only; omega, hu⟩
  · rintro ⟨h1, h2⟩
    refine ⟨(k.1 + 2 ^ 31).toNat, ?_, ?_⟩
    · exact List.mem_range.2 (by omega)
    · have e : ((k.1 + 2 ^ 31).toNat : Int) - 2 ^ 31 = k.1 := by omega
      rw [e, h2]; rfl

theorem entries_nodup (cf : CallFrame) : ((entries cf).map Prod.fst).Nodup := by
  unfold entries
  generalize 2 ^ 32 = n
  induction n with
  | zero => simp
  | succ n ih =>
    rw [List.range_succ, List.filterMap_append, List.map_append, List.nodup_append]
    refine ⟨ih, ?_, ?_⟩
    · simp only [List.filterMap_cons, List.filterMap_nil]
      split <;> simp
    · intro a ha b hb hab
      subst hab
      obtain ⟨x, hx, rfl⟩ := List.mem_map.1 ha
      obtain ⟨y, hy, he⟩ := List.mem_map.1 hb
      obtain ⟨i, hi, h1⟩ := List.mem_filterMap.1 hx
      obtain ⟨j, hj, h2⟩ := List.mem_filterMap.1 hy
      obtain ⟨u, -, e1⟩ := Option.map_eq_some_iff.1 h1
      obtain ⟨w, -, e2⟩ := Option.map_eq_some_iff.1 h2
      have h3 := List.mem_range.1 hi
      simp only [List.mem_singleton] at hj
      subst e1; subst e2
      simp only at he
      omega


theorem machine_provides (p : Proc) (regs : Regs) (cfa reloc : BitVec 64) :
    Provides (p.env regs cfa) (machineOf regs p.mem cfa reloc) reloc where
  reg := by
    intro r v h
    simp only [machineOf] at h
    simp only [Proc.env]
    split at h
    · rename_i w hw; simp only [Option.some.injEq] at h; subst h; exact hw
    · cases h
  word := by
    intro a v h
    simp only [machineOf] at h
    simp only [Proc.env]
    split at h
    · rename_i bs hbs
      split at h
      · rename_i hl
        simp only [Option.some.injEq] at h
        subst h
        rw [hbs]
        have := leNat_lt bs
        rw [hl] at this
        have e : (BitVec.ofNat 64 (leNat bs)).toNat = leNat bs := by simp; omega
        rw [e, ← hl, leBytes_leNat]
      · cases h
    · cases h
  cfa := rfl
  frameBase := by intro v h; cases h
  reloc := rfl

theorem encode_ne_nil (e : Spec.Expr) : e.encode ≠ [] := by
  have := nops_le e
  have : 0 < nops e := by cases e <;> simp [nops]
  intro h
  have := congrArg List.length h
  simp only [List.length_nil] at this
  omega

theorem evalRule_expr (p : Proc) (d : List Byte) (hw : d.length < W64) (reloc : BitVec 64) (regs : Regs) (cfa : BitVec 64)
    (stack : List (BitVec 64)) (u : RegUnwind) (e : Spec.Expr) (v : BitVec 64) (hb : BytesAt d u.w0 u.w1 e.encode)
    (hwf : e.WF) (hex : e.Exact (machineOf regs p.mem cfa reloc)) (hv : e.value (machineOf regs p.mem cfa reloc) = some v) :
    evalRule p d reloc regs cfa stack u = .ok v := by
  obtain ⟨hl, ht⟩ := hb
  have hne := encode_ne_nil e
  have hlen : u.w0.toNat + e.encode.length ≤ d.length := by
    have h1 := congrArg List.length ht
    simp only [List.length_take, List.length_drop] at h1
    have : 0 < e.encode.length := List.length_pos_iff.2 hne
    omega
  have hd : d.drop u.w0.toNat = e.encode ++ (d.drop u.w0.toNat).drop e.encode.length := by
    conv => lhs; rw [← List.take_append_drop e.encode.length (d.drop u.w0.toNat), ht]
  unfold evalRule
  rw [hl, Nat.mod_eq_of_lt (by omega),
    C20_expression_partial (p.env regs cfa) d hw reloc _ (machine_provides p regs cfa reloc) e hwf hex v hv _ stack 0 _ hd]
  rfl

theorem readAddr_word (mem : Nat → Nat → Res (List Byte)) (regs : Regs) (cfa reloc a v : BitVec 64)
    (h : (machineOf regs mem cfa reloc).word a = some v) : readAddr mem a = .ok v := by
  simp only [machineOf] at h
  split at h
  · rename_i bs hbs
    split at h
    · rename_i hl
      simp only [Option.some.injEq] at h
      unfold readAddr
      rw [hbs]
      simp only [Out.ofRes, Out.bind_ok, hl, ne_eq, not_true_eq_false, if_false, word_eq, h]
    · cases h
  · cases h

theorem readTyped_word (p : Proc) (regs : Regs) (cfa reloc a v : BitVec 64) (r : Int) (hr : 0 ≤ r ∧ r ≤ 16)
    (h : (machineOf regs p.mem cfa reloc).word a = some v) : readTyped p r a = .ok (.u64 v) := by
  obtain ⟨u, hu⟩ := slotOf_general r hr
  have := readAddr_word p.mem regs cfa reloc a v h
  unfold readTyped
  rw [hu]
  simp only [readExact]
  unfold readAddr at this
  cases hm : Out.ofRes (p.mem a.toNat 8) with
  | ok bs =>
    rw [hm] at this
    simp only [Out.bind_ok] at this ⊢
    split at this
    · cases this
    · rename_i hl
      simp only [Out.ok.injEq] at this
      rw [if_neg hl, this.symm]; rfl
  | exc => rw [hm] at this; cases this
  | stdexc => rw [hm] at this; cases this
  | ub => rw [hm] at this; cases this
  | abort => rw [hm] at this; cases this

theorem reg_some (regs : Regs) (mem : Nat → Nat → Res (List Byte)) (cfa reloc v : BitVec 64) (r : Nat)
    (h : (machineOf regs mem cfa reloc).reg r = some v) : regs.getDwarf (r : Int) = .ok (.u64 v) ∧ r ≤ 154 := by
  simp only [machineOf] at h
  split at h
  · rename_i w hw
    simp only [Option.some.injEq] at h
    subst h
    refine ⟨hw, ?_⟩
    by_cases hr : r ≤ 154
    · exact hr
    · have := (slotOf_none (r : Int)).2 (by omega)
      unfold Regs.getDwarf at hw
      rw [this] at hw
      cases hw
  · cases h

/-- What a stored rule that denotes a table rule does. -/
theorem ruleValue_denotes (p : Proc) (d : List Byte) (hw : d.length < W64) (reloc : BitVec 64) (f : Frame) (cfa : BitVec 64)
    (r : Nat) (hr : r ≤ 16) (u : RegUnwind) (rule : Rule) (v : BitVec 64) (hd : Denotes d u rule)
    (hv : rule.Value (machineOf f.regs p.mem cfa reloc) r v) :
    (rule.silent = true → ruleValue p d reloc f cfa r u = .ok none ∧ f.regs.getDwarf (r : Int) = .ok (.u64 v)) ∧
    (rule.silent = false → ruleValue p d reloc f cfa r u = .ok (some (.u64 v))) := by
  cases rule with
  | unspecified =>
    have h1 := reg_some _ _ _ _ _ _ hv
    have h2 : u.type = .arch := hd
    simp [Rule.silent, ruleValue, h2, h1.1]
  | undefined =>
    have h1 := reg_some _ _ _ _ _ _ hv
    have h2 : u.type = .undef := hd
    simp [Rule.silent, ruleValue, h2, h1.1]
  | same =>
    have h1 := reg_some _ _ _ _ _ _ hv
    have h2 : u.type = .same := hd
    simp [Rule.silent, ruleValue, h2, h1.1]
  | offset n =>
    obtain ⟨h2, h3⟩ : u.type = .offset ∧ u.w0 = BitVec.ofInt 64 n := hd
    have h4 := readTyped_word p f.regs cfa reloc (cfa + BitVec.ofInt 64 n) v r (by omega) hv
    simp [Rule.silent, ruleValue, h2, h3, h4]
  | register s =>
    obtain ⟨h2, h3⟩ : u.type = .reg ∧ u.w0 = BitVec.ofNat 64 s := hd
    have h1 := reg_some _ _ _ _ _ _ hv
    have e : ((BitVec.ofNat 64 s).setWidth 32).toInt = (s : Int) := by
      rw [BitVec.toInt_eq_toNat_of_lt]
      · simp; omega
      · simp; omega
    simp only [Rule.silent, ruleValue, h2, h3, e, h1.1]
    exact ⟨(by simp), fun _ => rfl⟩
  | expr code =>
    obtain ⟨h2, h3⟩ : u.type = .expression ∧ BytesAt d u.w0 u.w1 code := hd
    obtain ⟨e, rfl, hwf, hex, a, ha, hwd⟩ := hv
    have h4 := evalRule_expr p d hw reloc f.regs cfa [cfa] u e a h3 hwf hex ha
    have h5 := readAddr_word _ _ _ _ _ _ hwd
    simp [Rule.silent, ruleValue, h2, h4, h5]
  | valExpr code =>
    obtain ⟨h2, h3⟩ : u.type = .valExpression ∧ BytesAt d u.w0 u.w1 code := hd
    obtain ⟨e, rfl, hwf, hex, ha⟩ := hv
    have h4 := evalRule_expr p d hw reloc f.regs cfa [cfa] u e v h3 hwf hex ha
    simp [Rule.silent, ruleValue, h2, h4]

theorem cfaOf_denotes (p : Proc) (d : List Byte) (hw : d.length < W64) (reloc : BitVec 64) (f : Frame) (cf : CallFrame)
    (rule : CfaRule) (v : BitVec 64) (hd : DenotesCfa d cf rule)
    (hv : rule.Value (machineOf f.regs p.mem f.cfa reloc) v) : cfaOf p d reloc f cf = .ok v := by
  cases rule with
  | undefined => exact hv.elim
  | regOff r n =>
    obtain ⟨h1, h2, h3⟩ : cf.cfaReg = r ∧ cf.cfaValue.type = .offset ∧ cf.cfaValue.w0 = BitVec.ofInt 64 n := hd
    obtain ⟨x, h4, h5⟩ := hv
    obtain ⟨h6, h7⟩ := reg_some _ _ _ _ _ _ h4
    have e : r.toInt = (r.toNat : Int) := BitVec.toInt_eq_toNat_of_lt (by omega)
    unfold cfaOf
    rw [h2]
    simp only [h1, e, gp_of h6, h3, h5]
    rfl
  | expr code =>
    obtain ⟨h1, h2⟩ : cf.cfaValue.type = .expression ∧ BytesAt d cf.cfaValue.w0 cf.cfaValue.w1 code := hd
    obtain ⟨e, rfl, hwf, hex, hv⟩ := hv
    unfold cfaOf
    rw [h1]
    exact evalRule_expr p d hw reloc f.regs f.cfa [] cf.cfaValue e v h2 hwf hex hv

theorem ofInt_ofNat32 (r : Nat) (_ : r ≤ 16) : BitVec.ofInt 32 (r : Int) = BitVec.ofNat 32 r := by
  rw [BitVec.ofInt_natCast]

/-- The registers after the loop over the rules. -/
theorem rules_result (p : Proc) (d : List Byte) (hw : d.length < W64) (reloc : BitVec 64) (f : Frame) (cf : CallFrame)
    (cfa : BitVec 64) (row : Row) (hh : Holds d cf row) (hgen : row.General)
    (hval : ∀ r : Nat, r ≤ 16 → ∃ v, row.Gives (machineOf f.regs p.mem cfa reloc) r v) :
    ∃ out0 out, f.regs.setDwarf 7 (.u64 cfa) = .ok out0 ∧ applyRules p d reloc f cfa out0 (entries cf) = .ok out ∧
      (∀ r : Nat, r ≤ 16 → ∀ v, row.Gives (machineOf f.regs p.mem cfa reloc) r v → out.getDwarf (r : Int) = .ok (.u64 v)) ∧
      (∀ r : Int, r < 0 ∨ 16 < r → out.getDwarf r = f.regs.getDwarf r) := by
  obtain ⟨out0, s1, s2, s3⟩ := set_general f.regs 7 (by omega) cfa
  -- what each entry does
  have key : ∀ k ∈ entries cf,
      ((0 ≤ k.1 ∧ k.1 ≤ 16) ∧ (row.rule (BitVec.ofInt 32 k.1)).silent = false ∧
        ∀ v, row.Gives (machineOf f.regs p.mem cfa reloc) k.1.toNat v → ruleValue p d reloc f cfa k.1 k.2 = .ok (some (.u64 v))) ∨
      (((row.rule (BitVec.ofInt 32 k.1)).silent = true) ∧ ruleValue p d reloc f cfa k.1 k.2 = .ok none) := by
    intro k hk
    obtain ⟨hb, hreg⟩ := (mem_entries cf k).1 hk
    have hden := hh.2 (BitVec.ofInt 32 k.1)
    have hget : cf.get (BitVec.ofInt 32 k.1) = k.2 := by unfold CallFrame.get; rw [hreg]; rfl
    rw [hget] at hden
    by_cases hk16 : 0 ≤ k.1 ∧ k.1 ≤ 16
    · have ek : ((k.1.toNat : Nat) : Int) = k.1 := by omega
      have er : BitVec.ofInt 32 k.1 = BitVec.ofNat 32 k.1.toNat := by
        conv => lhs; rw [← ek]
        rw [ofInt_ofNat32 _ (by omega)]
      by_cases hs : (row.rule (BitVec.ofInt 32 k.1)).silent = true
      · right
        refine ⟨hs, ?_⟩
        cases hrule : row.rule (BitVec.ofInt 32 k.1) with
        | unspecified =>
          rw [hrule] at hden
          have h2 : k.2.type = .arch := hden
          simp [ruleValue, h2]
        | undefined =>
          rw [hrule] at hden
          have h2 : k.2.type = .undef := hden
          simp [ruleValue, h2]
        | _ => rw [hrule] at hs; cases hs
      · have hs' : (row.rule (BitVec.ofInt 32 k.1)).silent = false := by
          cases h : (row.rule (BitVec.ofInt 32 k.1)).silent <;> simp_all
        left
        refine ⟨hk16, hs', ?_⟩
        intro v hv
        unfold Row.Gives at hv
        rw [← er, if_neg (by rw [hs']; simp)] at hv
        have := (ruleValue_denotes p d hw reloc f cfa k.1.toNat (by omega) k.2 _ v hden hv).2 hs'
        rw [ek] at this
        exact this
    · have hr : row.rule (BitVec.ofInt 32 k.1) = .unspecified := by
        apply hgen
        rw [BitVec.toNat_ofInt]
        omega
      rw [hr] at hden ⊢
      have h2 : k.2.type = .arch := hden
      right
      refine ⟨rfl, ?_⟩
      simp [ruleValue, h2]
  obtain ⟨out, a1, a2, a3⟩ := applyRules_good p d reloc f cfa (entries cf) out0 (entries_nodup cf) (by
    intro k hk
    rcases key k hk with ⟨h1, h2, h3⟩ | ⟨h1, h2⟩
    · obtain ⟨v, hv⟩ := hval k.1.toNat (by omega)
      exact .inr (.inr ⟨h1, v, h3 v hv⟩)
    · exact .inl h2)
  refine ⟨out0, out, s1, a1, ?_, ?_⟩
  · intro r hr v hv
    by_cases hs : (row.rule (BitVec.ofNat 32 r)).silent = true
    · rw [a3 (r : Int) ?_]
      · unfold Row.Gives at hv
        by_cases h7 : r = 7
        · rw [if_pos ⟨h7, hs⟩] at hv
          subst h7
          rw [hv]; exact s2
        · rw [if_neg (by omega)] at hv
          rw [s3 _ (by omega)]
          have hden := hh.2 (BitVec.ofNat 32 r)
          exact ((ruleValue_denotes p d hw reloc f cfa r hr _ _ v hden hv).1 hs).2
      · intro k hk he
        rcases key k hk with ⟨h1, h2, h3⟩ | ⟨h1, h2⟩
        · rw [he, ofInt_ofNat32 r hr, hs] at h2; cases h2
        · exact .inl h2
    · have hs' : (row.rule (BitVec.ofNat 32 r)).silent = false := by
        cases h : (row.rule (BitVec.ofNat 32 r)).silent <;> simp_all
      have hden := hh.2 (BitVec.ofNat 32 r)
      have hsome : ∃ u, cf.registers (BitVec.ofNat 32 r) = some u := by
        cases hreg : cf.registers (BitVec.ofNat 32 r) with
        | some u => exact ⟨u, rfl⟩
        | none =>
          unfold CallFrame.get at hden
          rw [hreg] at hden
          cases hrule : row.rule (BitVec.ofNat 32 r) with
          | unspecified => rw [hrule] at hs'; cases hs'
          | undefined => rw [hrule] at hs'; cases hs'
          | same => rw [hrule] at hden; cases hden
          | offset n => rw [hrule] at hden; cases hden.1
          | register n => rw [hrule] at hden; cases hden.1
          | expr n => rw [hrule] at hden; cases hden.1
          | valExpr n => rw [hrule] at hden; cases hden.1
      obtain ⟨u, hu⟩ := hsome
      have hmem : ((r : Int), u) ∈ entries cf := (mem_entries cf _).2 ⟨by constructor <;> (simp only; omega), by rw [ofInt_ofNat32 r hr]; exact hu⟩
      rcases key _ hmem with ⟨h1, h2, h3⟩ | ⟨h1, h2⟩
      · exact a2 _ hmem _ (h3 v (by simpa using hv))
      · simp only [ofInt_ofNat32 r hr] at h1; rw [hs'] at h1; cases h1
  · intro r hr
    rw [a3 r ?_, s3 r (by omega)]
    intro k hk he
    rcases key k hk with ⟨h1, h2, h3⟩ | ⟨h1, h2⟩
    · omega
    · exact .inl h2

end Pstack.Unwind
