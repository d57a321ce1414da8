import Verif.Props.Unwind2
import Verif.Props.Cfi
/-
A concrete process for the theorems about unwinding, and the counterexample for C49.
-/
namespace Pstack.Props
open Pstack.Dwarf Pstack.Arch Pstack.Spec Pstack.Unwind

/-- Instructions of the common entry of functions that keep a frame pointer, and of the start function. -/
def framedInsns : List Insn := [.defCfa 6 16, .offset 6 2, .offset 16 1]
def startInsns : List Insn := [.defCfa 6 16]

def sampleFrames : List Byte := [0x0c#8, 0x06#8, 0x10#8, 0x86#8, 0x02#8, 0x90#8, 0x01#8, 0x07#8, 0x10#8]

def framedFDE : FDE := ⟨0x1000, 0x1000, 7, 7, ⟨0, false, 1, -8, 16, 0, 7, [], 0⟩, []⟩
def startFDE : FDE := ⟨0x3000, 0x1000, 7, 9, ⟨0, false, 1, -8, 16, 0, 3, [], 0⟩, []⟩

def sampleFind (a : Nat) : Res (Option FDE) :=
  if 0x1000 ≤ a ∧ a < 0x2000 then .ok (some framedFDE) else if 0x3000 ≤ a ∧ a < 0x4000 then .ok (some startFDE) else .ok none

def sampleLoc : Loc := ⟨0x400000, true, some (sampleFrames, sampleFind)⟩

/-- The stack of two calls. -/
def sampleWord (a : BitVec 64) : BitVec 64 :=
  if a = 0x7ff8 then 0x403005 else if a = 0x7ff0 then 0 else if a = 0x7fc8 then 0x401010 else if a = 0x7fc0 then 0x7ff0 else 0xdead

def sampleProc : Proc where
  mem a n := if n = 8 then .ok (leBytes 8 (sampleWord (BitVec.ofNat 64 a)).toNat) else .exc
  locate a := if 0x400000 ≤ a.toNat ∧ a.toNat < 0x500000 then .ok (some sampleLoc) else .ok none
  frameBase _ _ := .exc
  paramRef _ := .exc

theorem sample_rules (fde : FDE) (ci fi : List Insn) (row : Row) (ip : BitVec 64)
    (hfind : sampleFind (ip - 0x400000).toNat = .ok (some fde)) (hlo : 0x400000 ≤ ip.toNat) (hhi : ip.toNat < 0x500000)
    (hrar : fde.cie.rar = 16) (hci : ∀ i ∈ ci, i.WF) (hfi : ∀ i ∈ fi, i.WF)
    (hc1 : ∃ rest, sampleFrames.drop fde.cie.instructions = encodeInsns ci ++ rest)
    (hc2 : fde.cie.endOff = fde.cie.instructions + (encodeInsns ci).length)
    (hf1 : ∃ rest, sampleFrames.drop fde.instructions = encodeInsns fi ++ rest)
    (hf2 : fde.endOff = fde.instructions + (encodeInsns fi).length)
    (hnz : fde.instructions ≤ sampleFrames.length ∧ fde.cie.instructions ≤ sampleFrames.length)
    (ini : Row) (hini : finalRow ⟨fde.cie.codeAlign.toNat, fde.cie.dataAlign.toInt⟩ Row.init ⟨0, Row.init, []⟩ ci = some ini)
    (r : Row) (hrows : rows ⟨fde.cie.codeAlign.toNat, fde.cie.dataAlign.toInt⟩ ini ⟨fde.iloc.toNat, ini, []⟩ fi = some [(fde.iloc.toNat, r)])
    (hin : fde.iloc.toNat ≤ (ip - 0x400000).toNat) (hcfa : r.cfa = row.cfa) (hrule : ∀ x, r.rule x = row.rule x)
    (hgen : row.General) : RulesAt sampleProc ip 0x400000 sampleFrames fde row := by
  obtain ⟨rest1, hc1⟩ := hc1
  obtain ⟨rest2, hf1⟩ := hf1
  obtain ⟨cf, row', h1, h2, h3⟩ := C13_row_partial sampleFrames rest1 rest2 (by decide) fde ci fi hci hfi hc1 hc2 hf1 hf2 hnz ini hini _ hrows
    (ip - 0x400000) hin
  have hr : row' = r := by
    unfold rowAt at h2
    simp only [List.filter_cons, decide_eq_true hin, if_true, List.filter_nil, List.getLast?_singleton, Option.map_some, Option.some.injEq] at h2
    exact h2.symm
  subst hr
  refine ⟨⟨sampleLoc, sampleFind, ?_, rfl, rfl, hfind⟩, by decide, ⟨cf, h1, ?_, ?_⟩, hgen, hrar⟩
  · simp only [sampleProc, if_pos (And.intro hlo hhi)]
  · rw [← hcfa]; exact h3.1
  · intro x; rw [← hrule]; exact h3.2 x

theorem framed_general : framedRow.General := by
  intro r hr
  have h6 : ¬ r = 6 := by intro h; subst h; simp at hr
  have h16 : ¬ r = 16 := by intro h; subst h; simp at hr
  simp only [framedRow, if_neg h6, if_neg h16]

theorem start_general : startRow.General := by
  intro r hr
  have h16 : ¬ r = 16 := by intro h; subst h; simp at hr
  simp only [startRow, if_neg h16]

def sampleCode : Code sampleProc where
  framed ip := 0x401000 ≤ ip.toNat ∧ ip.toNat < 0x402000
  start ip := 0x403000 ≤ ip.toNat ∧ ip.toNat < 0x404000
  framed_rules ip h := by
    have hs : (ip - 0x400000).toNat = ip.toNat - 0x400000 := by
      rw [BitVec.toNat_sub]; simp; omega
    refine ⟨0x400000, sampleFrames, framedFDE, ?_, rfl⟩
    refine sample_rules framedFDE framedInsns [] framedRow ip ?_ (by omega) (by omega) rfl ?_ (by simp) ⟨[0x07#8, 0x10#8], ?_⟩ ?_ ⟨_, rfl⟩ rfl (by decide) _ rfl
      _ rfl ?_ rfl ?_ framed_general
    · rw [hs]; unfold sampleFind; rw [if_pos (by omega)]
    · simp [framedInsns, Insn.WF]
    · decide +kernel
    · decide +kernel
    · rw [hs]; show 0x1000 ≤ _; omega
    · intro x
      simp only [Row.set, Row.init, framedRow]
      by_cases h6 : x = 6
      · subst h6; rfl
      · by_cases h16 : x = 16
        · subst h16; rfl
        · simp only [if_neg h6, if_neg h16]; rw [if_neg (show ¬ x = 16#32 from h16), if_neg (show ¬ x = 6#32 from h6)]
  start_rules ip h := by
    have hs : (ip - 0x400000).toNat = ip.toNat - 0x400000 := by
      rw [BitVec.toNat_sub]; simp; omega
    refine ⟨0x400000, sampleFrames, startFDE, ?_, rfl⟩
    refine sample_rules startFDE startInsns [.undefined 16] startRow ip ?_ (by omega) (by omega) rfl ?_ ?_
      ⟨[0x86#8, 0x02#8, 0x90#8, 0x01#8, 0x07#8, 0x10#8], ?_⟩ ?_ ⟨[], ?_⟩ ?_ (by decide) _ rfl
      _ rfl ?_ rfl ?_ start_general
    · rw [hs]; unfold sampleFind; rw [if_neg (by omega), if_pos (by omega)]
    · simp [startInsns, Insn.WF]
    · simp [Insn.WF]
    · decide +kernel
    · decide +kernel
    · decide +kernel
    · decide +kernel
    · rw [hs]; show 0x3000 ≤ _; omega
    · intro x
      simp only [Row.set, Row.init, startRow]

theorem sample_not_signal (pc : BitVec 64) (h : 0x400000 ≤ pc.toNat ∧ pc.toNat < 0x500000) : SignalAt sampleProc pc false := by
  right; right
  have hs : (pc - 0x400000).toNat = pc.toNat - 0x400000 := by
    rw [BitVec.toNat_sub]; simp; omega
  by_cases h1 : 0x1000 ≤ (pc - 0x400000).toNat ∧ (pc - 0x400000).toNat < 0x2000
  · exact ⟨sampleLoc, _, _, some framedFDE, by simp only [sampleProc, if_pos h], rfl, by
      show sampleFind (pc - 0x400000).toNat = _; unfold sampleFind; rw [if_pos h1], rfl⟩
  · by_cases h2 : 0x3000 ≤ (pc - 0x400000).toNat ∧ (pc - 0x400000).toNat < 0x4000
    · exact ⟨sampleLoc, _, _, some startFDE, by simp only [sampleProc, if_pos h], rfl, by
        show sampleFind (pc - 0x400000).toNat = _; unfold sampleFind; rw [if_neg h1, if_pos h2], rfl⟩
    · exact ⟨sampleLoc, _, _, none, by simp only [sampleProc, if_pos h], rfl, by
        show sampleFind (pc - 0x400000).toNat = _; unfold sampleFind; rw [if_neg h1, if_neg h2], rfl⟩

theorem in_start (ip : BitVec 64) (h : 0x403000 ≤ ip.toNat ∧ ip.toNat < 0x404000) : sampleCode.here [] ip := h
theorem in_framed (ip : BitVec 64) (e : Caller) (es : List Caller) (h : 0x401000 ≤ ip.toNat ∧ ip.toNat < 0x402000) :
    sampleCode.here (e :: es) ip := h

/-- Two calls deep: the machine of `Run` gets there. -/
theorem sample_run : Run sampleCode ⟨0x401100, 0x7fa0, 0x7fc0, sampleWord⟩ [⟨0x401010, 0x7fd0, 0x7ff0⟩, ⟨0x403005, 0x8000, 0⟩] := by
  have r0 : Run sampleCode ⟨0x403000, 0x8000, 0, sampleWord⟩ [] := .start _ (in_start _ (by decide))
  have r1 : Run sampleCode ⟨0x401000, 0x7ff0, 0x7ff0, sampleWord⟩ [⟨0x403005, 0x8000, 0⟩] :=
    .call _ _ _ 0x403005 r0 ⟨by decide, in_start _ (by decide), sample_not_signal _ (by decide)⟩ (by decide) (by decide) (by simp)
      (in_framed _ ⟨0, 0, 0⟩ [] (by decide)) rfl rfl rfl (fun _ _ => rfl)
  have r2 : Run sampleCode ⟨0x40100b, 0x7fd0, 0x7ff0, sampleWord⟩ [⟨0x403005, 0x8000, 0⟩] :=
    .work _ _ _ r1 (in_framed _ _ _ (by decide)) rfl (fun _ _ _ => rfl)
  have r3 : Run sampleCode ⟨0x401080, 0x7fc0, 0x7fc0, sampleWord⟩ [⟨0x401010, 0x7fd0, 0x7ff0⟩, ⟨0x403005, 0x8000, 0⟩] :=
    .call _ _ _ 0x401010 r2 ⟨by decide, in_framed _ _ _ (by decide), sample_not_signal _ (by decide)⟩ (by decide) (by decide)
      (by intro _; decide) (in_framed _ ⟨0, 0, 0⟩ [] (by decide)) rfl rfl rfl (fun _ _ => rfl)
  exact .work _ _ _ r3 (in_framed _ _ _ (by decide)) rfl (fun _ _ _ => rfl)

/-- Registers, all zero but these. -/
def regsWith (ip sp bp : BitVec 64) : Regs :=
  { user := fun u => if u = .rip then ip else if u = .rsp then sp else if u = .rbp then bp else 0,
    xmm := fun _ => 0, st := fun _ => 0, mxcsr := 0, mxcrMask := 0, cwd := 0, swd := 0, ftw := 0, fop := 0, fpRip := 0, fpRdp := 0 }

theorem sample_shows : Shows sampleProc (regsWith 0x401100 0x7fa0 0x7fc0) ⟨0x401100, 0x7fa0, 0x7fc0, sampleWord⟩ :=
  ⟨rfl, rfl, rfl, fun a _ => by simp [sampleProc]⟩

/-- The theorem on this process: three frames. -/
example : ∃ fs, unwindThread sampleProc 1024 (regsWith 0x401100 0x7fa0 0x7fc0) = (fs, .ok ()) ∧ fs.length = 3 := by
  obtain ⟨fs, h1, h2, -⟩ := C16_calls sampleProc sampleCode _ _ sample_run _ sample_shows 1024 (by decide)
  exact ⟨fs, h1, h2⟩

/-- A thread that called through a bad pointer, in code for which nothing is known: its stack can be read but its frame
pointer points nowhere. -/
def lostProc : Proc where
  mem a n := if a = 0x7000 ∧ n = 8 then .ok (leBytes 8 0x401234) else .exc
  locate _ := .ok none
  frameBase _ _ := .exc
  paramRef _ := .exc

/-- C49 does not hold: two frames are recovered, then reading through the frame pointer of the second one throws, and nothing
at all is reported for the thread. -/
theorem C49_not_reported : ∃ (p : Proc) (regs : Regs),
    ((unwindThread p 1024 regs).1.map fun f => (f.regs.user .rip, f.regs.user .rsp)) = [(0, 0x7000), (0x401234, 0x7008)] ∧
    reported p 1024 regs = .ok none :=
  ⟨lostProc, regsWith 0 0x7000 0x123, by decide +kernel, by rfl⟩

/-- A bad call in `lostProc`: the hypotheses of `C50_bad_call` are met. -/
example : NoRules lostProc (Frame.new .machineRegs (regsWith 0 0x7000 0x123)) ∧ WordAt lostProc 0x7000 0x401234 :=
  ⟨.inl rfl, by unfold WordAt; rfl⟩

/-- Code without unwind information, called with a frame pointer. -/
def bareProc : Proc where
  mem a n := if a = 0x7008 ∧ n = 8 then .ok (leBytes 8 0x401234) else if a = 0x7000 ∧ n = 8 then .ok (leBytes 8 0x7100) else .exc
  locate a := if 0x400000 ≤ a.toNat ∧ a.toNat < 0x500000 then .ok (some ⟨0x400000, true, none⟩) else .ok none
  frameBase _ _ := .exc
  paramRef _ := .exc

example : ∃ f' nf, step bareProc (Frame.new .dwarf (regsWith 0x400100 0x6f00 0x7000)) = (f', .next nf) ∧
    nf.regs.user .rip = 0x401234 ∧ nf.regs.user .rsp = 0x7010 := by
  obtain ⟨f', nf, h1, -, -, -, h2, -, h3, -⟩ := C50_frame_pointer bareProc (Frame.new .dwarf (regsWith 0x400100 0x6f00 0x7000)) 0x401234 0x7100
    ⟨0x400000, true, none⟩ ⟨0x400000, true, none⟩ (.inl rfl) (by decide) (by decide) rfl rfl (by unfold WordAt; rfl) (by unfold WordAt; rfl) rfl rfl
  exact ⟨f', nf, h1, h2, h3⟩

end Pstack.Props
