import Verif.Proof.Unwind
import Verif.Spec.CallChain
/-
C15-C18 (unwinding), C48 (rule cache).
-/
namespace Pstack.Props
open Pstack.Dwarf Pstack.Arch Pstack.Spec Pstack.Expr Pstack.Unwind

/-! ## C15 -/

theorem fde_of_found {p : Proc} {ip reloc : BitVec 64} {d : List Byte} {fde : FDE}
    (h : ∃ loc find, p.locate ip = .ok (some loc) ∧ loc.reloc = reloc ∧ loc.cfi = some (d, find) ∧
      find (ip - reloc).toNat = .ok (some fde)) : ∃ loc, loc.reloc = reloc ∧ p.fde ip = .ok (some (loc, d, fde)) := by
  obtain ⟨loc, find, h1, h2, h3, h4⟩ := h
  refine ⟨loc, h2, ?_⟩
  unfold Proc.fde Loc.fde
  rw [h1]
  simp only [Out.bind_ok, h3, h2, h4, Out.ofRes]
  rfl

/-- The frame after a successful look at its rules. -/
def after (f : Frame) (fde : FDE) (cfa : BitVec 64) : Frame :=
  { f with isSignal := f.isSignal || fde.cie.isSignalHandler, cfa := cfa }

theorem unwind_eq {p : Proc} {f : Frame} {ip cfa : BitVec 64} {loc : Loc} {d : List Byte} {fde : FDE} {cf : CallFrame}
    (h1 : scopeIP p f = .ok ip) (h2 : p.fde ip = .ok (some (loc, d, fde)))
    (h3 : fde.execInsns d (ip - loc.reloc) = .ok cf)
    (h4 : ∀ s, cfaOf p d loc.reloc { f with isSignal := s } cf = .ok cfa) :
    unwind p f = (after f fde cfa, callerRegs p d loc.reloc (after f fde f.cfa) cf fde.cie.rar cfa) := by
  have hf : findRules p f = .ok (loc, d, fde, ip - loc.reloc) := by
    unfold findRules
    rw [h1]
    simp only [Out.bind_ok, h2]
    rfl
  have hs : (if fde.cie.isSignalHandler then { f with isSignal := true } else f) = after f fde f.cfa := by
    unfold after
    cases fde.cie.isSignalHandler <;> simp
  unfold unwind
  rw [hf]
  simp only [hs, h3, Out.ofRes, Out.bind_ok, show cfaOf p d loc.reloc (after f fde f.cfa) cf = .ok cfa from h4 _]
  rfl

/-- C15. Applying the rules of the row for a frame's address gives the caller's registers: the stack pointer is the CFA,
registers with a rule have the value it denotes over the callee's registers and memory, the program counter is what the
return address column says, and everything else is as in the callee. -/
theorem C15_caller (p : Proc) (f : Frame) (ip reloc cfa : BitVec 64) (d : List Byte) (fde : FDE) (row : Row)
    (hip : scopeIP p f = .ok ip)
    (hfound : ∃ loc find, p.locate ip = .ok (some loc) ∧ loc.reloc = reloc ∧ loc.cfi = some (d, find) ∧
      find (ip - reloc).toNat = .ok (some fde))
    (hw : d.length < W64) (hrow : ∃ cf, fde.execInsns d (ip - reloc) = .ok cf ∧ Holds d cf row) (hgen : row.General)
    (hcfa : row.cfa.Value (machineOf f.regs p.mem f.cfa reloc) cfa) (hne : cfa ≠ 0)
    (hrar : fde.cie.rar ≤ 16) (hdef : row.rule (BitVec.ofNat 32 fde.cie.rar) ≠ .undefined)
    (hval : ∀ r : Nat, r ≤ 16 → ∃ v, row.Gives (machineOf f.regs p.mem cfa reloc) r v) :
    ∃ out, unwind p f = (after f fde cfa, .ok (some out)) ∧
      Restores row (machineOf f.regs p.mem cfa reloc) fde.cie.rar f.regs out ∧
      ∀ up, Restores row (machineOf f.regs p.mem cfa reloc) fde.cie.rar f.regs up → SameRegs out up := by
  obtain ⟨loc, hloc, hfde⟩ := fde_of_found hfound
  obtain ⟨cf, hcf, hh⟩ := hrow
  subst hloc
  rw [unwind_eq hip hfde hcf (cfa := cfa) (fun s => cfaOf_denotes p d hw loc.reloc { f with isSignal := s } cf row.cfa cfa hh.1 hcfa)]
  obtain ⟨out0, out, e1, e2, e3, e4⟩ := rules_result p d hw loc.reloc (after f fde f.cfa) cf cfa row hh hgen hval
  have ha : (after f fde f.cfa).regs = f.regs := rfl
  rw [ha] at e3 e4
  have hund : ¬ ((cf.registers (BitVec.ofNat 32 fde.cie.rar)).map RegUnwind.type = some .undef ∨ cfa = 0) := by
    rintro (h | h)
    · have hden := hh.2 (BitVec.ofNat 32 fde.cie.rar)
      obtain ⟨u, hu, ht⟩ := Option.map_eq_some_iff.1 h
      have hg : cf.get (BitVec.ofNat 32 fde.cie.rar) = u := by unfold CallFrame.get; rw [hu]; rfl
      rw [hg] at hden
      cases hrule : row.rule (BitVec.ofNat 32 fde.cie.rar) with
      | undefined => exact hdef hrule
      | unspecified => rw [hrule] at hden; have : u.type = .arch := hden; rw [ht] at this; cases this
      | same => rw [hrule] at hden; have : u.type = .same := hden; rw [ht] at this; cases this
      | offset n => rw [hrule] at hden; have := hden.1; rw [ht] at this; cases this
      | register n => rw [hrule] at hden; have := hden.1; rw [ht] at this; cases this
      | expr n => rw [hrule] at hden; have := hden.1; rw [ht] at this; cases this
      | valExpr n => rw [hrule] at hden; have := hden.1; rw [ht] at this; cases this
    · exact hne h
  -- the final registers
  obtain ⟨fin, hfin, g1, g2, g3⟩ : ∃ fin, callerRegs p d loc.reloc (after f fde f.cfa) cf fde.cie.rar cfa = .ok (some fin) ∧
      (∀ r : Nat, r < 16 → fin.getDwarf (r : Int) = out.getDwarf (r : Int)) ∧
      fin.getDwarf 16 = out.getDwarf (fde.cie.rar : Int) ∧
      (∀ r : Int, r < 0 ∨ 16 < r → fin.getDwarf r = out.getDwarf r) := by
    unfold callerRegs
    rw [e1, Out.bind_ok, e2, Out.bind_ok, if_neg hund]
    by_cases h16 : fde.cie.rar = 16
    · rw [if_neg (by omega)]
      exact ⟨out, rfl, fun _ _ => rfl, by rw [h16]; rfl, fun _ _ => rfl⟩
    · rw [if_pos h16]
      have er : (BitVec.ofNat 32 fde.cie.rar).toInt = (fde.cie.rar : Int) := by
        rw [BitVec.toInt_eq_toNat_of_lt]
        · simp; omega
        · simp; omega
      obtain ⟨v, hv⟩ := get_general out (fde.cie.rar : Int) (by omega)
      obtain ⟨fin, f1, f2, f3⟩ := set_general out 16 (by omega) v
      rw [er, hv]
      simp only [Out.bind_ok, f1]
      exact ⟨fin, rfl, fun r hr => f3 _ (by omega), f2, fun r hr => f3 _ (by omega)⟩
  refine ⟨fin, by rw [hfin], ?_, ?_⟩
  · refine ⟨?_, ?_, ?_⟩
    · intro r hr
      obtain ⟨v, hv⟩ := hval r (by omega)
      exact ⟨v, hv, by rw [g1 r hr]; exact e3 r (by omega) v hv⟩
    · obtain ⟨v, hv⟩ := hval fde.cie.rar hrar
      exact ⟨v, hv, g2.trans (e3 fde.cie.rar hrar v hv)⟩
    · intro r hr
      rw [g3 r hr]; exact e4 r hr
  · intro up hup r
    by_cases hlo : r < 0 ∨ 16 < r
    · rw [g3 r hlo, e4 r hlo]; exact (hup.others r hlo).symm
    · by_cases h16 : r = 16
      · subst h16
        obtain ⟨v, hv, hg⟩ := hup.pc
        rw [g2, e3 _ hrar v hv, hg]
      · obtain ⟨v, hv, hg⟩ := hup.general r.toNat (by omega)
        have er : ((r.toNat : Nat) : Int) = r := by omega
        rw [er] at hg
        have := g1 r.toNat (by omega)
        rw [er] at this
        rw [this, hg]
        have := e3 r.toNat (by omega) v hv
        rwa [er] at this

/-- C15. No caller is reported when the return address is undefined (or the CFA is zero). -/
theorem C15_no_caller (p : Proc) (f : Frame) (ip reloc cfa : BitVec 64) (d : List Byte) (fde : FDE) (row : Row)
    (hip : scopeIP p f = .ok ip)
    (hfound : ∃ loc find, p.locate ip = .ok (some loc) ∧ loc.reloc = reloc ∧ loc.cfi = some (d, find) ∧
      find (ip - reloc).toNat = .ok (some fde))
    (hw : d.length < W64) (hrow : ∃ cf, fde.execInsns d (ip - reloc) = .ok cf ∧ Holds d cf row) (hgen : row.General)
    (hcfa : row.cfa.Value (machineOf f.regs p.mem f.cfa reloc) cfa)
    (hend : row.rule (BitVec.ofNat 32 fde.cie.rar) = .undefined ∨ cfa = 0)
    (hval : ∀ r : Nat, r ≤ 16 → ∃ v, row.Gives (machineOf f.regs p.mem cfa reloc) r v) :
    unwind p f = (after f fde cfa, .ok none) := by
  obtain ⟨loc, hloc, hfde⟩ := fde_of_found hfound
  obtain ⟨cf, hcf, hh⟩ := hrow
  subst hloc
  rw [unwind_eq hip hfde hcf (cfa := cfa) (fun s => cfaOf_denotes p d hw loc.reloc { f with isSignal := s } cf row.cfa cfa hh.1 hcfa)]
  obtain ⟨out0, out, e1, e2, e3, e4⟩ := rules_result p d hw loc.reloc (after f fde f.cfa) cf cfa row hh hgen hval
  unfold callerRegs
  rw [e1, Out.bind_ok, e2, Out.bind_ok, if_pos]
  · rfl
  · rcases hend with h | h
    · left
      have hden := hh.2 (BitVec.ofNat 32 fde.cie.rar)
      rw [h] at hden
      have hd : (cf.get (BitVec.ofNat 32 fde.cie.rar)).type = .undef := hden
      unfold CallFrame.get at hd
      cases hr : cf.registers (BitVec.ofNat 32 fde.cie.rar) with
      | none => rw [hr] at hd; cases hd
      | some u => rw [hr] at hd; exact congrArg some hd
    · exact .inr h

theorem applyRules_keeps (p : Proc) (d : List Byte) (reloc : BitVec 64) (f : Frame) (cfa : BitVec 64)
    (l : List (Int × RegUnwind)) : ∀ out out' : Regs, applyRules p d reloc f cfa out l = .ok out' → ∀ r : Int, 0 ≤ r ∧ r ≤ 16 →
    (∀ k ∈ l, k.1 = r → ruleValue p d reloc f cfa k.1 k.2 = .ok none ∨ ruleValue p d reloc f cfa k.1 k.2 = .exc) →
    out'.getDwarf r = out.getDwarf r := by
  induction l with
  | nil =>
    intro out out' h r hr hk
    simp only [applyRules, Out.ok.injEq] at h
    rw [h]
  | cons k l ih =>
    intro out out' h r hr hk
    rw [applyRules] at h
    obtain ⟨out1, h1, h2⟩ := Out.bind_eq_ok.1 h
    rw [ih out1 out' h2 r hr (fun x hx => hk x (List.mem_cons_of_mem _ hx))]
    unfold applyRule at h1
    split at h1 <;> first | (cases h1; done) | skip
    · simp only [Out.ok.injEq] at h1; rw [h1]
    · rename_i v hv
      have hne : r ≠ k.1 := by
        intro he
        rcases hk k (List.mem_cons_self ..) he.symm with h | h <;> rw [h] at hv <;> cases hv
      exact C19_set_others_partial out out1 k.1 r v h1 hne (by simp only [MmXmm]; omega)
    · simp only [Out.ok.injEq] at h1; rw [h1]

/-- C15. A register saved where memory cannot be read does not stop the unwinding: it is left as the callee has it. -/
theorem C15_unreadable_kept (p : Proc) (f f' : Frame) (out : Regs) (ip reloc cfa : BitVec 64) (d : List Byte) (fde : FDE)
    (cf : CallFrame) (hip : scopeIP p f = .ok ip)
    (hfound : ∃ loc find, p.locate ip = .ok (some loc) ∧ loc.reloc = reloc ∧ loc.cfi = some (d, find) ∧
      find (ip - reloc).toNat = .ok (some fde))
    (hcf : fde.execInsns d (ip - reloc) = .ok cf) (hcfa : ∀ s, cfaOf p d reloc { f with isSignal := s } cf = .ok cfa)
    (h : unwind p f = (f', .ok (some out))) (r : Nat) (hr : r < 16) (h7 : r ≠ 7)
    (u : RegUnwind) (hu : cf.registers (BitVec.ofNat 32 r) = some u) (ht : u.type = .offset)
    (hmem : p.mem (cfa + u.w0).toNat 8 = .exc ∨ ∃ bs, p.mem (cfa + u.w0).toNat 8 = .ok bs ∧ bs.length < 8) :
    out.getDwarf (r : Int) = f.regs.getDwarf (r : Int) := by
  obtain ⟨loc, hloc, hfde⟩ := fde_of_found hfound
  subst hloc
  rw [unwind_eq hip hfde hcf hcfa] at h
  simp only [Prod.mk.injEq] at h
  have hc := h.2
  unfold callerRegs at hc
  obtain ⟨out0, e1, hc2⟩ := Out.bind_eq_ok.1 hc
  obtain ⟨out1, e2, hc3⟩ := Out.bind_eq_ok.1 hc2
  obtain ⟨x, x1, -, x3⟩ := set_general (after f fde f.cfa).regs 7 (by omega) cfa
  rw [x1] at e1
  simp only [Out.ok.injEq] at e1
  subst e1
  have hk := applyRules_keeps p d loc.reloc (after f fde f.cfa) cfa _ _ _ e2 (r : Int) (by omega) (by
    intro k hk he
    right
    obtain ⟨-, hreg⟩ := (mem_entries cf k).1 hk
    rw [he, ofInt_ofNat32 r (by omega), hu] at hreg
    simp only [Option.some.injEq] at hreg
    obtain ⟨s, hs⟩ := slotOf_general (r : Int) (by omega)
    unfold ruleValue
    rw [← hreg, ht]
    unfold readTyped
    rw [he, hs]
    simp only [readExact]
    rcases hmem with hm | ⟨bs, hm, hl⟩
    · rw [hm]; rfl
    · rw [hm]; simp only [Out.ofRes, Out.bind_ok]; rw [if_pos (by omega)]; rfl)
  have hout : out.getDwarf (r : Int) = out1.getDwarf (r : Int) := by
    by_cases hund : (cf.registers (BitVec.ofNat 32 fde.cie.rar)).map RegUnwind.type = some .undef ∨ cfa = 0
    · rw [if_pos hund] at hc3
      cases hc3
    · rw [if_neg hund] at hc3
      by_cases hrar : fde.cie.rar ≠ 16
      · rw [if_pos hrar] at hc3
        obtain ⟨v, hv, hc4⟩ := Out.bind_eq_ok.1 hc3
        obtain ⟨o, ho, hc5⟩ := Out.bind_eq_ok.1 hc4
        simp only [Out.pure_eq, Out.ok.injEq, Option.some.injEq] at hc5
        subst hc5
        exact C19_set_others_partial out1 o 16 (r : Int) v ho (by omega) (by simp only [MmXmm]; omega)
      · rw [if_neg hrar] at hc3
        simp only [Out.pure_eq, Out.ok.injEq, Option.some.injEq] at hc3
        rw [hc3]
  rw [hout, hk, x3 _ (by omega)]
  rfl

/-! ## C16 -/

theorem rip_of (regs : Regs) (pc : BitVec 64) (h : regs.getDwarf 16 = .ok (.u64 pc)) : regs.user .rip = pc := by
  have : regs.getDwarf 16 = .ok (.u64 (regs.user .rip)) := rfl
  rw [this] at h
  simpa using h

theorem inSignal_of (p : Proc) (addr : BitVec 64) (b : Bool) (h : SignalAt p addr b) : p.inSignal addr = .ok b := by
  unfold Proc.inSignal Proc.fde
  rcases h with ⟨h1, rfl⟩ | ⟨loc, h1, h2, rfl⟩ | ⟨loc, d, find, fde, h1, h2, h3, rfl⟩
  · rw [h1]; rfl
  · rw [h1]
    simp only [Out.bind_ok, Loc.fde, h2]
    rfl
  · rw [h1]
    simp only [Out.bind_ok, Loc.fde, h2, h3, Out.ofRes]
    cases fde <;> rfl

theorem scopeIP_site (p : Proc) (f : Frame) (exact : Bool) (pc ip : BitVec 64) (hpc : f.regs.getDwarf 16 = .ok (.u64 pc))
    (hx : exact = true ↔ (f.mech = .machineRegs ∨ f.mech = .trampoline ∨ f.isSignal = true ∨ f.fromSignal = true))
    (h : Site p exact pc ip) : scopeIP p f = .ok ip := by
  have hr : f.rawIP = pc := rip_of _ _ hpc
  unfold scopeIP
  rw [hr]
  unfold Site at h
  by_cases h0 : pc = 0
  · rw [if_pos (.inr h0)] at h
    simp only [h0, if_true]
    rw [h, h0]
  · simp only [h0, if_false]
    by_cases he : exact = true
    · rw [if_pos (.inl he)] at h
      subst h
      rcases hx.1 he with hm | hm | hm | hm
      · rw [if_pos (.inl hm)]
      · rw [if_pos (.inr hm)]
      · split
        · rfl
        · first | rfl | rw [if_pos hm]
      · split
        · rfl
        · split
          · rfl
          · first | rfl | rw [if_pos hm]
    · rw [if_neg (by rintro (h | h); exact he h; exact h0 h)] at h
      have hn : ¬ (f.mech = .machineRegs ∨ f.mech = .trampoline ∨ f.isSignal = true ∨ f.fromSignal = true) := fun hh => he (hx.2 hh)
      rw [if_neg (by intro hh; rcases hh with hh | hh <;> exact hn (by simp [hh])), if_neg (fun hh => hn (by simp [hh])),
        if_neg (fun hh => hn (by simp [hh]))]
      rcases h with ⟨h1, h2⟩ | ⟨h1, h2⟩
      · rw [inSignal_of p pc true h1, h2]; rfl
      · rw [inSignal_of p pc false h1, h2]; rfl

theorem machineOf_same {a b : Regs} (h : SameRegs a b) (mem : Nat → Nat → Res (List Byte)) (cfa reloc : BitVec 64) :
    machineOf a mem cfa reloc = machineOf b mem cfa reloc := by
  unfold machineOf
  congr 1
  funext r
  rw [h r]

theorem Restores.same_callee {row : Row} {m : Machine} {rar : Nat} {a b up : Regs} (h : SameRegs a b)
    (hr : Restores row m rar a up) : Restores row m rar b up :=
  ⟨hr.general, hr.pc, fun r hr' => by rw [hr.others r hr', h r]⟩

theorem Chain.same {p : Proc} {e : Bool} {a b : Regs} {l : List Regs} (hs : SameRegs a b) (h : Chain p e a l) : Chain p e b l := by
  cases h with
  | outermost exact regs pc ip reloc cfa d fde row h1 h2 h3 h4 h5 h6 =>
    exact .outermost e b pc ip reloc cfa d fde row (by rw [← hs 16]; exact h1) h2 h3 (by rw [← machineOf_same hs]; exact h4) h5
      (by rw [← machineOf_same hs]; exact h6)
  | caller exact regs pc ip reloc cfa d fde row up ups h1 h2 h3 h4 h5 h6 h7 h8 =>
    exact .caller e b pc ip reloc cfa d fde row up ups (by rw [← hs 16]; exact h1) h2 h3 (by rw [← machineOf_same hs]; exact h4) h5 h6
      (by rw [← machineOf_same hs]; exact Restores.same_callee hs h7) h8

theorem loop_chain (p : Proc) : ∀ (l : List Regs) (n : Nat) (f : Frame) (exact : Bool),
    f.cfa = 0 → f.isSignal = false →
    (exact = true ↔ (f.mech = .machineRegs ∨ f.mech = .trampoline ∨ f.isSignal = true ∨ f.fromSignal = true)) →
    Chain p exact f.regs l → ∃ fs, loop p n f = (fs, .ok ()) ∧ SameAll fs ((f.regs :: l).take (n + 1)) := by
  intro l
  induction l with
  | nil =>
    intro n f exact hcfa0 hsig hx h
    cases n with
    | zero => exact ⟨[f], rfl, .cons (fun _ => rfl) .nil⟩
    | succ n =>
      cases h with
      | outermost _ _ pc ip reloc cfa d fde row h1 h2 h3 h4 h5 h6 =>
        have hu := C15_no_caller p f ip reloc cfa d fde row (scopeIP_site p f exact pc ip h1 hx h2) h3.found h3.size h3.rules h3.general
          (by rw [hcfa0]; exact h4) (.inl (by rw [h3.rar]; exact h5)) (by
            intro r hr
            by_cases h16 : r = 16
            · subst h16
              unfold Row.Gives
              refine ⟨pc, ?_⟩
              rw [if_neg (by omega), show BitVec.ofNat 32 16 = (16 : BitVec 32) from rfl, h5]
              exact (by simp only [Rule.Value, machineOf]; rw [show ((16 : Nat) : Int) = 16 from rfl, h1])
            · exact h6 r (by omega))
        refine ⟨[after f fde cfa], ?_, .cons (fun _ => rfl) .nil⟩
        unfold loop step
        rw [hu]
  | cons up ups ih =>
    intro n f exact hcfa0 hsig hx h
    cases n with
    | zero => exact ⟨[f], rfl, .cons (fun _ => rfl) .nil⟩
    | succ n =>
      cases h with
      | caller _ _ pc ip reloc cfa d fde row _ _ h1 h2 h3 h4 h5 h6 h7 h8 =>
        obtain ⟨out, hu, -, hsame⟩ := C15_caller p f ip reloc cfa d fde row (scopeIP_site p f exact pc ip h1 hx h2) h3.found h3.size
          h3.rules h3.general (by rw [hcfa0]; exact h4) h5 (by rw [h3.rar]; exact Nat.le_refl _) (by rw [h3.rar]; exact h6) (by
            intro r hr
            by_cases h16 : r = 16
            · subst h16; obtain ⟨v, hv, -⟩ := h7.pc; exact ⟨v, hv⟩
            · obtain ⟨v, hv, -⟩ := h7.general r (by omega); exact ⟨v, hv⟩)
        have hs := hsame up (by rw [h3.rar]; exact h7)
        have hsig' : (after f fde cfa).isSignal = fde.cie.isSignalHandler := by simp [after, hsig]
        obtain ⟨fs, hl, hall⟩ := ih n { Frame.new .dwarf out with fromSignal := (after f fde cfa).isSignal } fde.cie.isSignalHandler rfl rfl
          (by simp [Frame.new, hsig']) (Chain.same (fun r => (hs r).symm) h8)
        refine ⟨after f fde cfa :: fs, ?_, ?_⟩
        · unfold loop step
          rw [hu]
          simp only [hl]
        · rw [List.take_succ_cons]
          refine .cons (fun _ => rfl) ?_
          cases hall with
          | cons hd tl =>
            rw [List.take_succ_cons]
            exact .cons (fun r => (hd r).trans (hs r)) tl

/-- C16. If the registers and memory of a thread are those of a call chain by the registered rules, unwinding reports the
chain: the frames innermost first, every register of every caller, and nothing after the outermost. -/
theorem C16_chain (p : Proc) (maxframes : Int) (regs : Regs) (callers : List Regs) (h : Chain p true regs callers)
    (hlen : (callers.length : Int) ≤ maxframes) :
    ∃ fs, unwindThread p maxframes regs = (fs, .ok ()) ∧ SameAll fs (regs :: callers) := by
  obtain ⟨fs, h1, h2⟩ := loop_chain p callers maxframes.toNat (Frame.new .machineRegs regs) true rfl rfl (by simp [Frame.new]) h
  refine ⟨fs, h1, ?_⟩
  rw [List.take_of_length_le (by simp; omega)] at h2
  exact h2

/-- C16, C17. A chain longer than the limit is cut there: the innermost `maxframes + 1` frames are reported. -/
theorem C16_chain_cut (p : Proc) (maxframes : Nat) (regs : Regs) (callers : List Regs) (h : Chain p true regs callers) :
    ∃ fs, unwindThread p maxframes regs = (fs, .ok ()) ∧ SameAll fs ((regs :: callers).take (maxframes + 1)) :=
  loop_chain p callers maxframes (Frame.new .machineRegs regs) true rfl rfl (by simp [Frame.new]) h

/-! ## C17 -/

theorem loop_bound (p : Proc) : ∀ n f, (loop p n f).1.length ≤ n + 1 ∧ 0 < (loop p n f).1.length := by
  intro n
  induction n with
  | zero => intro f; simp [loop]
  | succ n ih =>
    intro f
    unfold loop
    split
    · simp
    · simp
    · rename_i f' nf _
      have := ih nf
      simp only [List.length_cons]
      omega

theorem unwind_keeps (p : Proc) (f : Frame) : (unwind p f).1.regs = f.regs ∧ (unwind p f).1.mech = f.mech := by
  unfold unwind
  split
  · split <;> (dsimp only; split <;> exact ⟨rfl, rfl⟩)
  all_goals exact ⟨rfl, rfl⟩

theorem fallback_keeps (p : Proc) (f : Frame) : (fallback p f).1.regs = f.regs ∧ (fallback p f).1.mech = f.mech := by
  unfold fallback
  split
  · exact ⟨rfl, rfl⟩
  · split <;> exact ⟨rfl, rfl⟩
  all_goals exact ⟨rfl, rfl⟩

theorem step_keeps (p : Proc) (f : Frame) : (step p f).1.regs = f.regs ∧ (step p f).1.mech = f.mech := by
  have h := unwind_keeps p f
  unfold step
  split
  all_goals rename_i f' hu
  all_goals rw [hu] at h
  all_goals first | exact h | skip
  all_goals
    have h2 := fallback_keeps p f'
    exact ⟨h2.1.trans h.1, h2.2.trans h.2⟩

theorem loop_head (p : Proc) (n : Nat) (f : Frame) :
    ∃ f' rest, (loop p n f).1 = f' :: rest ∧ f'.regs = f.regs ∧ f'.mech = f.mech := by
  have h := step_keeps p f
  cases n with
  | zero => exact ⟨f, [], rfl, rfl, rfl⟩
  | succ n =>
    unfold loop
    split <;> rename_i hs <;> rw [hs] at h
    · exact ⟨_, [], rfl, h⟩
    · exact ⟨_, [], rfl, h⟩
    · exact ⟨_, _, rfl, h⟩

/-- C17. Whatever memory and registers contain, unwinding a thread leaves at least one and at most `maxframes + 1` frames,
and the first has the thread's own registers. -/
theorem C17_bounded (p : Proc) (maxframes : Int) (regs : Regs) :
    (unwindThread p maxframes regs).1.length ≤ maxframes.toNat + 1 ∧
    ∃ f rest, (unwindThread p maxframes regs).1 = f :: rest ∧ f.regs = regs ∧ f.mech = .machineRegs :=
  ⟨(loop_bound p _ _).1, loop_head p _ _⟩

theorem step_next_mech (p : Proc) (f f' nf : Frame) (h : step p f = (f', .next nf)) : nf.mech ≠ .machineRegs := by
  have hfb : ∀ g, fallback p g = (f', .next nf) → nf.mech ≠ .machineRegs := by
    intro g hg
    unfold fallback at hg
    split at hg
    · rename_i x hb
      simp only [Prod.mk.injEq, Step.next.injEq] at hg
      obtain ⟨-, rfl⟩ := hg
      unfold badIp at hb
      split at hb
      · obtain ⟨loc, -, hb⟩ := Out.bind_eq_ok.1 hb
        split at hb
        · cases hb
        · obtain ⟨bs, -, hb⟩ := Out.bind_eq_ok.1 hb
          split at hb
          · simp only [Out.pure_eq, Out.ok.injEq, Option.some.injEq] at hb; subst hb; simp [Frame.new]
          · cases hb
      · cases hb
    · split at hg
      · rename_i x hb
        simp only [Prod.mk.injEq, Step.next.injEq] at hg
        obtain ⟨-, rfl⟩ := hg
        unfold framePointer at hb
        obtain ⟨loc, -, hb⟩ := Out.bind_eq_ok.1 hb
        split at hb
        · dsimp only at hb
          split at hb
          · cases hb
          · obtain ⟨a, -, hb⟩ := Out.bind_eq_ok.1 hb
            obtain ⟨b, -, hb⟩ := Out.bind_eq_ok.1 hb
            obtain ⟨c, -, hb⟩ := Out.bind_eq_ok.1 hb
            split at hb
            · simp only [Out.pure_eq, Out.ok.injEq, Option.some.injEq, Prod.mk.injEq] at hb
              obtain ⟨-, rfl⟩ := hb; simp [Frame.new]
            · cases hb
        · cases hb
      all_goals simp at hg
    all_goals simp at hg
  unfold step at h
  split at h
  · simp at h
  · simp only [Prod.mk.injEq, Step.next.injEq] at h
    obtain ⟨-, rfl⟩ := h; simp [Frame.new]
  · exact hfb _ h
  · exact hfb _ h
  · simp at h
  · simp at h

/-- C17. Only the first frame is reported as coming from the machine registers. -/
theorem C17_only_first (p : Proc) (maxframes : Int) (regs : Regs) :
    ∀ f ∈ (unwindThread p maxframes regs).1.tail, f.mech ≠ .machineRegs := by
  have key : ∀ n f, f.mech ≠ .machineRegs → ∀ g ∈ (loop p n f).1, g.mech ≠ .machineRegs := by
    intro n
    induction n with
    | zero => intro f hf g hg; simp [loop] at hg; subst hg; exact hf
    | succ n ih =>
      intro f hf g hg
      have hk := step_keeps p f
      unfold loop at hg
      split at hg <;> rename_i hs <;> rw [hs] at hk
      · simp at hg; subst hg; rw [hk.2]; exact hf
      · simp at hg; subst hg; rw [hk.2]; exact hf
      · rcases List.mem_cons.1 hg with rfl | hg
        · rw [hk.2]; exact hf
        · exact ih _ (step_next_mech p _ _ _ hs) g hg
  intro f hf
  unfold unwindThread at hf
  cases hm : maxframes.toNat with
  | zero => rw [hm] at hf; simp [loop] at hf
  | succ n =>
    rw [hm] at hf
    unfold loop at hf
    split at hf <;> rename_i hs
    · simp at hf
    · simp at hf
    · exact key _ _ (step_next_mech p _ _ _ hs) f hf

end Pstack.Props
