import Verif.Proof.Calls
/-
C16 for histories of calls, C17 and C49 (what a failure costs), C18 (lookup addresses), C48 (rule cache).
-/
namespace Pstack.Props
open Pstack.Dwarf Pstack.Arch Pstack.Spec Pstack.Unwind

/-! ## C16 -/

theorem SameAll.get {fs : List Frame} {l : List Regs} (h : SameAll fs l) : fs.length = l.length ∧
    ∀ (i : Nat) (r : Regs), l[i]? = some r → ∃ f : Frame, fs[i]? = some f ∧ SameRegs f.regs r := by
  induction h with
  | nil => exact ⟨rfl, fun i r h => by simp at h⟩
  | cons hs _ ih =>
    refine ⟨by simp [ih.1], fun i r hr => ?_⟩
    cases i with
    | zero => simp at hr; subst hr; exact ⟨_, rfl, hs⟩
    | succ i => simp at hr; simpa using ih.2 i r hr

theorem Matches.same {a b : Regs} {e : Caller} (h : SameRegs a b) (hm : Matches b e) : Matches a e := by
  have h6 := h 6
  have h7 := h 7
  have h16 := h 16
  rw [getDwarf_user a 6 .rbp rfl, getDwarf_user b 6 .rbp rfl] at h6
  rw [getDwarf_user a 7 .rsp rfl, getDwarf_user b 7 .rsp rfl] at h7
  rw [getDwarf_user a 16 .rip rfl, getDwarf_user b 16 .rip rfl] at h16
  simp only [Out.ok.injEq, RegVal.u64.injEq] at h6 h7 h16
  exact ⟨by rw [h16]; exact hm.1, by rw [h7]; exact hm.2.1, by rw [h6]; exact hm.2.2⟩

/-- C16. After any history of calls, returns and other work in a thread, unwinding reports exactly the calls that have not
returned, innermost first: the current one, and for each caller the address it will return to and its stack and frame
pointers. -/
theorem C16_calls (p : Proc) (code : Code p) (c : Cpu) (callers : List Caller) (h : Run code c callers) (regs : Regs)
    (hs : Shows p regs c) (maxframes : Int) (hlen : (callers.length : Int) ≤ maxframes) :
    ∃ fs, unwindThread p maxframes regs = (fs, .ok ()) ∧ fs.length = callers.length + 1 ∧
      ∀ (i : Nat) (e : Caller), (⟨c.pc, c.sp, c.bp⟩ :: callers)[i]? = some e → ∃ f : Frame, fs[i]? = some f ∧
        f.regs.user .rip = e.pc ∧ f.regs.user .rsp = e.sp ∧ f.regs.user .rbp = e.bp := by
  obtain ⟨h1, h2⟩ := run_linked h
  obtain ⟨ups, c1, c2, c3⟩ := linked_chain code c.word hs.word callers regs true c.pc (by rw [hs.bp]; exact h2)
    (by unfold Site; rw [if_pos (.inl rfl)]; exact hs.pc.symm) h1
  obtain ⟨fs, f1, f2⟩ := C16_chain p maxframes regs ups c1 (by rw [c2]; exact hlen)
  obtain ⟨g1, g2⟩ := SameAll.get f2
  refine ⟨fs, f1, by simp [g1, c2], ?_⟩
  intro i e he
  cases i with
  | zero =>
    simp at he
    obtain ⟨f, x1, x2⟩ := g2 0 regs rfl
    exact ⟨f, x1, Matches.same x2 (by subst he; exact ⟨hs.pc, hs.sp, hs.bp⟩)⟩
  | succ i =>
    simp at he
    obtain ⟨r, y1, y2⟩ := c3 i e he
    obtain ⟨f, x1, x2⟩ := g2 (i + 1) r (by simpa using y1)
    exact ⟨f, x1, Matches.same x2 y2⟩

/-! ## C18 -/

/-- C18. The raw program counter is used for the frame that shows the machine's own registers, for a signal trampoline,
for a frame interrupted by a signal, and for a zero program counter. -/
theorem C18_exact (p : Proc) (f : Frame)
    (h : f.regs.user .rip = 0 ∨ f.mech = .machineRegs ∨ f.mech = .trampoline ∨ f.isSignal = true ∨ f.fromSignal = true) :
    scopeIP p f = .ok (f.regs.user .rip) := by
  unfold scopeIP Frame.rawIP
  dsimp only
  split
  · rfl
  · split
    · rfl
    · split
      · rfl
      · split
        · rfl
        · rename_i h1 h2 h3 h4
          rcases h with h | h | h | h | h
          · exact absurd h h1
          · exact absurd (.inl h) h2
          · exact absurd (.inr h) h2
          · exact absurd h h3
          · exact absurd h h4

/-- C18. A frame whose program counter lies in the entry of a signal handler's return code keeps it; any other frame uses
the call before it. -/
theorem C18_call (p : Proc) (f : Frame) (sig : Bool) (h0 : f.regs.user .rip ≠ 0) (h1 : f.mech ≠ .machineRegs)
    (h2 : f.mech ≠ .trampoline) (h3 : f.isSignal = false) (h4 : f.fromSignal = false)
    (hs : SignalAt p (f.regs.user .rip) sig) :
    scopeIP p f = .ok (if sig then f.regs.user .rip else f.regs.user .rip - 1) := by
  unfold scopeIP Frame.rawIP
  dsimp only
  rw [if_neg h0, if_neg (by simp [h1, h2]), if_neg (by simp [h3]), if_neg (by simp [h4]), inSignal_of p _ sig hs]
  cases sig <;> rfl

theorem step_flags (p : Proc) (f : Frame) : (step p f).1.fromSignal = f.fromSignal := by
  have hu : (unwind p f).1.fromSignal = f.fromSignal := by
    unfold unwind
    split
    · dsimp only
      split <;> split <;> rfl
    all_goals rfl
  have hf : ∀ g, (fallback p g).1.fromSignal = g.fromSignal := by
    intro g
    unfold fallback
    split
    · rfl
    · split <;> rfl
    all_goals rfl
  unfold step
  split
  all_goals rename_i hs
  all_goals rw [hs] at hu
  all_goals first | exact hu | (rw [hf]; exact hu)

theorem fallback_next (p : Proc) (f f' nf : Frame) (h : fallback p f = (f', .next nf)) :
    nf.fromSignal = false ∧ nf.isSignal = false ∧ (nf.mech = .badIpRecovery ∨ nf.mech = .framePointer) := by
  unfold fallback at h
  split at h
  · rename_i x hb
    simp only [Prod.mk.injEq, Step.next.injEq] at h
    obtain ⟨-, rfl⟩ := h
    unfold badIp at hb
    split at hb
    · obtain ⟨loc, -, hb⟩ := Out.bind_eq_ok.1 hb
      split at hb
      · cases hb
      · obtain ⟨bs, -, hb⟩ := Out.bind_eq_ok.1 hb
        split at hb
        · simp only [Out.pure_eq, Out.ok.injEq, Option.some.injEq] at hb; subst hb; simp [Frame.new]
        · cases hb
    · cases hb
  · split at h
    · rename_i x hb
      simp only [Prod.mk.injEq, Step.next.injEq] at h
      obtain ⟨-, rfl⟩ := h
      unfold framePointer at hb
      obtain ⟨loc, -, hb⟩ := Out.bind_eq_ok.1 hb
      split at hb
      · dsimp only at hb
        split at hb
        · cases hb
        · obtain ⟨a, -, hb⟩ := Out.bind_eq_ok.1 hb
          obtain ⟨b, -, hb⟩ := Out.bind_eq_ok.1 hb
          obtain ⟨c, -, hb⟩ := Out.bind_eq_ok.1 hb
          split at hb
          · simp only [Out.pure_eq, Out.ok.injEq, Option.some.injEq, Prod.mk.injEq] at hb
            obtain ⟨-, rfl⟩ := hb; simp [Frame.new]
          · cases hb
      · cases hb
    all_goals simp at h
  all_goals simp at h

theorem unwind_signal (p : Proc) (f f' : Frame) (r : Option Regs) (h : unwind p f = (f', .ok r)) (hs : f.isSignal = false) :
    ∃ ip loc d fde, scopeIP p f = .ok ip ∧ p.fde ip = .ok (some (loc, d, fde)) ∧ f'.isSignal = fde.cie.isSignalHandler := by
  unfold unwind at h
  split at h
  · rename_i loc d fde oa hf
    unfold findRules at hf
    obtain ⟨ip, h1, hf⟩ := Out.bind_eq_ok.1 hf
    obtain ⟨x, h2, hf⟩ := Out.bind_eq_ok.1 hf
    cases x with
    | none => cases hf
    | some x =>
      obtain ⟨loc', d', fde'⟩ := x
      simp only [Out.pure_eq, Out.ok.injEq, Prod.mk.injEq] at hf
      obtain ⟨rfl, rfl, rfl, -⟩ := hf
      refine ⟨ip, _, _, _, h1, h2, ?_⟩
      dsimp only at h
      split at h <;> simp only [Prod.mk.injEq] at h
      · obtain ⟨rfl, -⟩ := h
        split
        · rename_i hh; simp [hh]
        · rename_i hh; simp [hs, hh]
      all_goals simp at h
  all_goals simp at h

/-- What two consecutive frames have to do with each other. -/
def Follows (p : Proc) (a b : Frame) : Prop :=
  (b.mech = .dwarf ∧ b.fromSignal = a.isSignal ∧
    ∃ ip loc d fde, scopeIP p { a with isSignal := false } = .ok ip ∧ p.fde ip = .ok (some (loc, d, fde)) ∧
      a.isSignal = fde.cie.isSignalHandler) ∨
  ((b.mech = .badIpRecovery ∨ b.mech = .framePointer) ∧ b.fromSignal = false)

theorem scopeIP_congr (p : Proc) (f g : Frame) (h1 : f.regs = g.regs) (h2 : f.mech = g.mech) (h3 : f.isSignal = g.isSignal)
    (h4 : f.fromSignal = g.fromSignal) : scopeIP p f = scopeIP p g := by
  unfold scopeIP Frame.rawIP
  rw [h1, h2, h3, h4]

theorem step_follows (p : Proc) (f f' nf : Frame) (hs : f.isSignal = false) (h : step p f = (f', .next nf)) :
    Follows p f' nf ∧ nf.isSignal = false := by
  have hk := step_keeps p f
  have hfl := step_flags p f
  rw [h] at hk hfl
  unfold step at h
  split at h
  · simp at h
  · rename_i x regs hu
    simp only [Prod.mk.injEq, Step.next.injEq] at h
    obtain ⟨rfl, rfl⟩ := h
    refine ⟨.inl ⟨rfl, rfl, ?_⟩, rfl⟩
    obtain ⟨ip, loc, d, fde, a1, a2, a3⟩ := unwind_signal p f _ _ hu hs
    refine ⟨ip, loc, d, fde, ?_, a2, a3⟩
    rw [← a1]
    exact scopeIP_congr p _ _ hk.1 hk.2 hs.symm hfl
  · obtain ⟨a, b, c⟩ := fallback_next p _ _ _ h
    exact ⟨.inr ⟨c, a⟩, b⟩
  · obtain ⟨a, b, c⟩ := fallback_next p _ _ _ h
    exact ⟨.inr ⟨c, a⟩, b⟩
  · simp at h
  · simp at h

theorem Follows.congr {p : Proc} {a b b' : Frame} (h1 : b'.mech = b.mech) (h2 : b'.fromSignal = b.fromSignal) (h : Follows p a b) :
    Follows p a b' := by
  unfold Follows
  rw [h1, h2]
  exact h

theorem loop_follows (p : Proc) : ∀ n f, f.isSignal = false → ∀ (i : Nat) (a b : Frame), (loop p n f).1[i]? = some a → (loop p n f).1[i + 1]? = some b →
    Follows p a b := by
  intro n
  induction n with
  | zero => intro f _ i a b _ h2; simp [loop] at h2
  | succ n ih =>
    intro f hf i a b h1 h2
    unfold loop at h1 h2
    split at h1 <;> rename_i hs
    · simp [hs] at h2
    · simp [hs] at h2
    · rename_i f' nf
      rw [hs] at h2
      obtain ⟨k1, k2⟩ := step_follows p f f' nf hf hs
      cases i with
      | zero =>
        simp only [List.getElem?_cons_zero, Option.some.injEq] at h1
        simp only [Nat.zero_add, List.getElem?_cons_succ] at h2
        subst h1
        obtain ⟨x, rest, hx, hx1, hx2⟩ := loop_head p n nf
        have hx3 : x.fromSignal = nf.fromSignal := by
          cases n with
          | zero => simp [loop] at hx; rw [hx.1]
          | succ n =>
            have hfl := step_flags p nf
            unfold loop at hx
            split at hx <;> rename_i hs' <;> rw [hs'] at hfl <;> simp at hx <;> rw [← hx.1] <;> exact hfl
        rw [hx] at h2
        simp at h2
        subst h2
        exact k1.congr hx2 hx3
      | succ i =>
        simp only [List.getElem?_cons_succ] at h1 h2
        exact ih nf k2 i a b h1 h2

/-- C18, for a whole stack. The frame after one that was unwound by the rules of a signal handler's return code is looked up
at its raw program counter; so is that return code itself, and the innermost frame. -/
theorem C18_stack (p : Proc) (maxframes : Int) (regs : Regs) (i : Nat) (a b : Frame)
    (ha : (unwindThread p maxframes regs).1[i]? = some a) (hb : (unwindThread p maxframes regs).1[i + 1]? = some b)
    (hd : b.mech = .dwarf) :
    (∃ ip loc d fde, scopeIP p { a with isSignal := false } = .ok ip ∧ p.fde ip = .ok (some (loc, d, fde)) ∧
      (fde.cie.isSignalHandler = true → scopeIP p a = .ok (a.regs.user .rip) ∧ scopeIP p b = .ok (b.regs.user .rip)) ∧
      (fde.cie.isSignalHandler = false → b.fromSignal = false)) ∧
    (i = 0 → scopeIP p a = .ok (regs.user .rip)) := by
  have hfol := loop_follows p maxframes.toNat (Frame.new .machineRegs regs) rfl i a b ha hb
  refine ⟨?_, ?_⟩
  · rcases hfol with ⟨-, h2, ip, loc, d, fde, h3, h4, h5⟩ | ⟨h1, -⟩
    · refine ⟨ip, loc, d, fde, h3, h4, fun hs => ⟨?_, ?_⟩, fun hs => by rw [h2, h5, hs]⟩
      · exact C18_exact p a (by simp [h5, hs])
      · exact C18_exact p b (by simp [h2, h5, hs])
    · rw [hd] at h1; simp at h1
  · intro hi
    subst hi
    obtain ⟨f, rest, hf, h1, h2⟩ := (C17_bounded p maxframes regs).2
    rw [hf] at ha
    simp at ha
    subst ha
    rw [← h1]
    exact C18_exact p f (by simp [h2])

/-! ## C48 -/

/-- Look up the rules for a sequence of addresses with one cache. -/
def lookups (d : List Byte) (find : BitVec 64 → FDE) (cache : List (Nat × CallFrame)) : List (BitVec 64) → List (Res CallFrame)
  | [] => []
  | a :: as =>
      let r := cachedRules d cache (find a) a
      r.2 :: lookups d find r.1 as

theorem lookups_eq (d : List Byte) (find : BitVec 64 → FDE) (as : List (BitVec 64)) : ∀ (cache : List (Nat × CallFrame)),
    (∀ e ∈ cache, ∃ a : BitVec 64, e.1 = a.toNat ∧ (find a).execInsns d a = .ok e.2) →
    lookups d find cache as = as.map fun a => (find a).execInsns d a := by
  induction as with
  | nil => intro _ _; rfl
  | cons a as ih =>
    intro cache hc
    unfold lookups cachedRules
    rw [List.map_cons]
    cases hf : cache.find? (fun e => e.1 == a.toNat) with
    | some e =>
      obtain ⟨b, hb1, hb2⟩ := hc e (List.mem_of_find?_eq_some hf)
      have := List.find?_some hf
      simp at this
      have hba : b = a := BitVec.eq_of_toNat_eq (by omega)
      subst hba
      simp only [hb2]
      rw [ih cache hc]
    | none =>
      simp only
      cases he : (find a).execInsns d a with
      | ok cf =>
        simp only
        rw [ih _ (by
          intro e hm
          rcases List.mem_cons.1 hm with rfl | hm
          · exact ⟨a, rfl, he⟩
          · exact hc e hm)]
      | exc => simp only; rw [ih cache hc]
      | ub => simp only; rw [ih cache hc]
      | abort => simp only; rw [ih cache hc]

/-- C48. Keeping the rules computed for an address never changes what a later lookup gives: any sequence of lookups gives
what running the entry's program afresh each time would. -/
theorem C48_cache_transparent (d : List Byte) (find : BitVec 64 → FDE) (as : List (BitVec 64)) :
    lookups d find [] as = as.map fun a => (find a).execInsns d a :=
  lookups_eq d find as [] (by simp)

/-! ## C49 -/

theorem readAddr_total {mem : Nat → Nat → Res (List Byte)} (hm : ∀ a, ∃ bs, mem a 8 = .ok bs ∧ bs.length = 8) (a : BitVec 64) :
    ∃ v, Expr.readAddr mem a = .ok v := by
  obtain ⟨bs, h1, h2⟩ := hm a.toNat
  refine ⟨Expr.word bs, ?_⟩
  unfold Expr.readAddr
  rw [h1]
  simp [Out.ofRes, h2]

theorem fallback_total (p : Proc) (hm : ∀ a, ∃ bs, p.mem a 8 = .ok bs ∧ bs.length = 8) (hl : ∀ a, ∃ l, p.locate a = .ok l)
    (f : Frame) : ∀ o, (fallback p f).2 ≠ .fail o := by
  intro o
  unfold fallback
  obtain ⟨x, hx⟩ : ∃ x, badIp p f = .ok x := by
    unfold badIp
    split
    · obtain ⟨l, hl⟩ := hl (f.regs.user .rip)
      rw [hl]
      simp only [Out.bind_ok]
      split
      · exact ⟨_, rfl⟩
      · obtain ⟨bs, h1, h2⟩ := hm (f.regs.user .rsp).toNat
        rw [h1]
        simp only [Out.ofRes, Out.bind_ok, if_pos h2]
        exact ⟨_, rfl⟩
    · exact ⟨_, rfl⟩
  obtain ⟨y, hy⟩ : ∃ y, framePointer p f = .ok y := by
    unfold framePointer
    obtain ⟨l, hl'⟩ := hl f.rawIP
    rw [hl']
    simp only [Out.bind_ok]
    split
    · skip
      split
      · exact ⟨_, rfl⟩
      · obtain ⟨a, ha⟩ := readAddr_total hm (f.regs.user .rbp + 8)
        obtain ⟨b, hb⟩ := readAddr_total hm (f.regs.user .rbp)
        rw [ha]
        simp only [Out.bind_ok]
        rw [hb]
        simp only [Out.bind_ok]
        obtain ⟨c, hc⟩ := hl a
        rw [hc]
        simp only [Out.bind_ok]
        split <;> exact ⟨_, rfl⟩
    · exact ⟨_, rfl⟩
  rw [hx, hy]
  cases x with
  | some nf => simp
  | none =>
    cases y with
    | some y => simp
    | none => simp

theorem loop_total (p : Proc) (hm : ∀ a, ∃ bs, p.mem a 8 = .ok bs ∧ bs.length = 8) (hl : ∀ a, ∃ l, p.locate a = .ok l) :
    ∀ n f, (loop p n f).2 ≠ .exc ∧ (loop p n f).2 ≠ .stdexc := by
  intro n
  induction n with
  | zero => intro f; simp [loop]
  | succ n ih =>
    intro f
    unfold loop
    split
    · simp
    · rename_i f' o hs
      unfold step at hs
      split at hs
      · simp at hs
      · simp at hs
      · exact absurd (congrArg Prod.snd hs) (fallback_total p hm hl _ o)
      · exact absurd (congrArg Prod.snd hs) (fallback_total p hm hl _ o)
      · simp only [Prod.mk.injEq, Step.fail.injEq] at hs; rw [← hs.2]; simp
      · simp only [Prod.mk.injEq, Step.fail.injEq] at hs; rw [← hs.2]; simp
    · exact ih _

/-- C49, where memory is readable. If every word of memory can be read and locating an address never throws, no thread is
dropped: whatever frames unwinding recovers are reported (unless the expressions in the unwind tables make the program
undefined). Missing: unreadable memory, see `C49_not_reported`. -/
theorem C49_reported_partial (p : Proc) (hm : ∀ a, ∃ bs, p.mem a 8 = .ok bs ∧ bs.length = 8)
    (hl : ∀ a, ∃ l, p.locate a = .ok l) (maxframes : Int) (regs : Regs) :
    reported p maxframes regs = .ok (some (unwindThread p maxframes regs).1) ∨
    reported p maxframes regs = .ub ∨ reported p maxframes regs = .abort := by
  have h := loop_total p hm hl maxframes.toNat (Frame.new .machineRegs regs)
  unfold reported
  unfold unwindThread at *
  cases hr : loop p maxframes.toNat (Frame.new .machineRegs regs) with
  | mk fs o =>
    rw [hr] at h
    cases o with
    | ok u => simp
    | exc => simp at h
    | stdexc => simp at h
    | ub => simp
    | abort => simp

/-! ## C50 -/

/-- The word that memory holds. -/
def WordAt (p : Proc) (a v : BitVec 64) : Prop := p.mem a.toNat 8 = .ok (leBytes 8 v.toNat)

theorem word_leBytes (v : BitVec 64) : Expr.word (leBytes 8 v.toNat) = v := by
  have h := Pstack.Expr.readAddr_of (mem := fun _ _ => .ok (leBytes 8 v.toNat)) (a := 0) (v := v) rfl
  unfold Expr.readAddr at h
  simpa [Out.ofRes, leBytes_length] using h

/-- No unwind rules can be used for the frame. -/
def NoRules (p : Proc) (f : Frame) : Prop := (unwind p f).2 = .exc ∨ (unwind p f).2 = .stdexc

theorem step_fallback (p : Proc) (f : Frame) (h : NoRules p f) : step p f = fallback p (unwind p f).1 := by
  unfold NoRules at h
  unfold step
  cases hu : unwind p f with
  | mk g o =>
    rw [hu] at h
    simp only at h
    rcases h with h | h <;> subst h <;> rfl

/-- C50. A frame without usable rules, whose frame pointer points at a saved frame pointer and a return address in
executable code, is followed by the caller that these give. -/
theorem C50_frame_pointer (p : Proc) (f : Frame) (ip bp : BitVec 64) (l0 l : Loc) (h : NoRules p f)
    (hpc : f.regs.user .rip ≠ 0) (hbp : f.regs.user .rbp ≠ 0)
    (hhere : p.locate (f.regs.user .rip) = .ok (some l0)) (hexec0 : l0.exec = true)
    (hip : WordAt p (f.regs.user .rbp + 8) ip) (hsaved : WordAt p (f.regs.user .rbp) bp)
    (hl : p.locate ip = .ok (some l)) (hexec : l.exec = true) :
    ∃ f' nf, step p f = (f', .next nf) ∧ f'.regs = f.regs ∧ f'.cfa = f.regs.user .rbp + 16 ∧ nf.mech = .framePointer ∧
      nf.regs.user .rip = ip ∧ nf.regs.user .rbp = bp ∧ nf.regs.user .rsp = f.regs.user .rbp + 16 ∧
      ∀ r, r ≠ .rip → r ≠ .rbp → r ≠ .rsp → nf.regs.user r = f.regs.user r := by
  rw [step_fallback p f h]
  have hk := (unwind_keeps p f).1
  generalize hg : (unwind p f).1 = g at hk
  have hb : badIp p g = .ok none := by
    unfold badIp
    rw [hk]
    split
    · rw [hhere]; simp [hexec0]
    · rfl
  have hf : framePointer p g = .ok (some (f.regs.user .rbp + 16, Frame.new .framePointer
      { f.regs with user := upd (upd (upd f.regs.user .rsp (f.regs.user .rbp + 16)) .rip ip) .rbp bp })) := by
    unfold framePointer Frame.rawIP
    rw [hk, hhere]
    simp only [Out.bind_ok]
    rw [if_pos hpc, if_neg hbp, Pstack.Expr.readAddr_of hip]
    simp only [Out.bind_ok]
    rw [Pstack.Expr.readAddr_of hsaved]
    simp only [Out.bind_ok]
    rw [hl]
    simp only [Out.bind_ok]
    rw [if_pos (by simp [hexec])]
    rfl
  unfold fallback
  rw [hb, hf]
  refine ⟨_, _, rfl, hk, rfl, rfl, ?_, ?_, ?_, ?_⟩
  · simp [Frame.new, upd]
  · simp [Frame.new, upd]
  · simp [Frame.new, upd]
  · intro r h1 h2 h3
    simp [Frame.new, upd, h1, h2, h3]

/-- C50. If the innermost frame (or the one a signal interrupted) is outside executable code, its caller is the frame that
a call instruction left: the return address is on top of the stack. -/
theorem C50_bad_call (p : Proc) (f : Frame) (ip : BitVec 64) (l : Option Loc) (h : NoRules p f)
    (hfirst : f.mech = .machineRegs ∨ f.mech = .trampoline ∨ f.fromSignal = true)
    (hl : p.locate (f.regs.user .rip) = .ok l) (hexec : (l.map Loc.exec).getD false = false)
    (hip : WordAt p (f.regs.user .rsp) ip) :
    ∃ f' nf, step p f = (f', .next nf) ∧ f'.regs = f.regs ∧ nf.mech = .badIpRecovery ∧
      nf.regs.user .rip = ip ∧ nf.regs.user .rsp = f.regs.user .rsp + 8 ∧
      ∀ r, r ≠ .rip → r ≠ .rsp → nf.regs.user r = f.regs.user r := by
  rw [step_fallback p f h]
  have hk := (unwind_keeps p f).1
  have hm := (unwind_keeps p f).2
  have hs : (unwind p f).1.fromSignal = f.fromSignal := by
    unfold unwind
    split
    · dsimp only
      split <;> split <;> rfl
    all_goals rfl
  generalize hg : (unwind p f).1 = g at hk hm hs
  have hb : badIp p g = .ok (some (Frame.new .badIpRecovery
      { f.regs with user := upd (upd f.regs.user .rsp (f.regs.user .rsp + 8)) .rip ip })) := by
    unfold badIp
    rw [hk, hm, hs, if_pos hfirst, hl]
    simp only [Out.bind_ok]
    rw [if_neg (by simp [hexec])]
    unfold WordAt at hip
    rw [hip]
    simp only [Out.ofRes, Out.bind_ok]
    rw [if_pos (leBytes_length 8 _), word_leBytes]
    rfl
  unfold fallback
  rw [hb]
  refine ⟨_, _, rfl, hk, rfl, ?_, ?_, ?_⟩
  · simp [Frame.new, upd]
  · simp [Frame.new, upd]
  · intro r h1 h2
    simp [Frame.new, upd, h1, h2]

/-- C50. A null frame pointer, or a zero program counter, ends the stack. -/
theorem C50_ends (p : Proc) (f : Frame) (l : Option Loc) (h : NoRules p f) (hnf : f.mech = .dwarf ∨ f.mech = .framePointer ∨ f.mech = .badIpRecovery)
    (hns : f.fromSignal = false) (hl : p.locate (f.regs.user .rip) = .ok l)
    (hend : f.regs.user .rip = 0 ∨ f.regs.user .rbp = 0) : ∃ f', step p f = (f', .stop) ∧ f'.regs = f.regs := by
  rw [step_fallback p f h]
  have hk := (unwind_keeps p f).1
  have hm := (unwind_keeps p f).2
  have hs : (unwind p f).1.fromSignal = f.fromSignal := by
    unfold unwind
    split
    · dsimp only
      split <;> split <;> rfl
    all_goals rfl
  generalize hg : (unwind p f).1 = g at hk hm hs
  have hb : badIp p g = .ok none := by
    unfold badIp
    rw [hm, hs, if_neg (by rcases hnf with h | h | h <;> simp [h, hns])]
    rfl
  have hf : framePointer p g = .ok none := by
    unfold framePointer Frame.rawIP
    rw [hk, hl]
    simp only [Out.bind_ok]
    by_cases h0 : f.regs.user .rip = 0
    · rw [if_neg (by simp [h0])]; rfl
    · rw [if_pos h0]
      rcases hend with h | h
      · exact absurd h h0
      · rw [if_pos h]; rfl
  unfold fallback
  rw [hb, hf]
  exact ⟨_, rfl, hk⟩

end Pstack.Props
