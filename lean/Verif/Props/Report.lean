import Verif.Model.Report
import Verif.Spec.Report
import Verif.Props.StackText
import Verif.Props.Stacks
/-
C90: what is shown of a process.
-/
namespace Pstack.Props
open Pstack.Die Pstack.Spec Pstack.StackText Pstack.Report Pstack.Elf Pstack.Reader
open Pstack.Args (say dec pointer)

/-! ### How it ended -/

theorem SigRecord.fields (s : SigRecord) : int32 s.bytes 0 = s.signo.toInt ∧ int32 s.bytes 8 = s.code.toInt ∧ int32 s.bytes 16 = s.lower.toInt ∧ int32 s.bytes 24 = s.fd.toInt ∧
    field s.bytes 16 8 = s.lower.toNat + 2 ^ 32 * s.upper.toNat := by
  have w : ∀ (pre post : List Byte) (v : BitVec 32) (off : Nat), pre.length = off → int32 (pre ++ leBytes 4 v.toNat ++ post) off = v.toInt := by
    intro pre post v off h
    unfold int32
    rw [List.append_assoc, Pstack.Elf.field_at pre post off 4 v.toNat h v.isLt, BitVec.ofNat_toNat, BitVec.setWidth_eq]
  have l4 : ∀ v : BitVec 32, (leBytes 4 v.toNat).length = 4 := fun v => Dwarf.leBytes_length 4 v.toNat
  refine ⟨?_, ?_, ?_, ?_, ?_⟩
  · have := w [] (leBytes 4 s.errno.toNat ++ (leBytes 4 s.code.toNat ++ (leBytes 4 s.pad.toNat ++ (leBytes 4 s.lower.toNat ++ (leBytes 4 s.upper.toNat ++ (leBytes 4 s.fd.toNat ++ s.rest)))))) s.signo 0 rfl
    exact this
  · have := w (leBytes 4 s.signo.toNat ++ leBytes 4 s.errno.toNat) (leBytes 4 s.pad.toNat ++ (leBytes 4 s.lower.toNat ++ (leBytes 4 s.upper.toNat ++ (leBytes 4 s.fd.toNat ++ s.rest)))) s.code 8
      (by simp only [List.length_append, l4])
    unfold SigRecord.bytes
    simpa only [List.append_assoc] using this
  · have := w (leBytes 4 s.signo.toNat ++ (leBytes 4 s.errno.toNat ++ (leBytes 4 s.code.toNat ++ leBytes 4 s.pad.toNat))) (leBytes 4 s.upper.toNat ++ (leBytes 4 s.fd.toNat ++ s.rest)) s.lower 16
      (by simp only [List.length_append, l4])
    unfold SigRecord.bytes
    simpa only [List.append_assoc] using this
  · have := w (leBytes 4 s.signo.toNat ++ (leBytes 4 s.errno.toNat ++ (leBytes 4 s.code.toNat ++ (leBytes 4 s.pad.toNat ++ (leBytes 4 s.lower.toNat ++ leBytes 4 s.upper.toNat))))) s.rest s.fd 24
      (by simp only [List.length_append, l4])
    unfold SigRecord.bytes
    simpa only [List.append_assoc] using this
  · unfold field SigRecord.bytes
    rw [load_eq]
    have e : ((leBytes 4 s.signo.toNat ++ (leBytes 4 s.errno.toNat ++ (leBytes 4 s.code.toNat ++ (leBytes 4 s.pad.toNat ++ (leBytes 4 s.lower.toNat ++ (leBytes 4 s.upper.toNat ++
        (leBytes 4 s.fd.toNat ++ s.rest))))))).drop 16).take 8 = leBytes 4 s.lower.toNat ++ leBytes 4 s.upper.toNat := by
      rw [show leBytes 4 s.signo.toNat ++ (leBytes 4 s.errno.toNat ++ (leBytes 4 s.code.toNat ++ (leBytes 4 s.pad.toNat ++ (leBytes 4 s.lower.toNat ++ (leBytes 4 s.upper.toNat ++
        (leBytes 4 s.fd.toNat ++ s.rest)))))) = (leBytes 4 s.signo.toNat ++ (leBytes 4 s.errno.toNat ++ (leBytes 4 s.code.toNat ++ leBytes 4 s.pad.toNat))) ++
        ((leBytes 4 s.lower.toNat ++ leBytes 4 s.upper.toNat) ++ (leBytes 4 s.fd.toNat ++ s.rest)) by simp only [List.append_assoc],
        List.drop_left' (by simp only [List.length_append, l4]), List.take_left' (by simp only [List.length_append, l4])]
    rw [e, Dwarf.leNat_append, Dwarf.leNat_leBytes, Dwarf.leNat_leBytes, l4, Nat.mod_eq_of_lt s.lower.isLt, Nat.mod_eq_of_lt s.upper.isLt]

/-- The reason that is given. -/
def whyOf (signo code : Int) : Option String :=
  match findKey signo codes with
  | some m => findKey code m
  | none => (findKey 0 codes).bind (findKey code)

theorem codeText_eq (signo code : Int) : codeText signo code = (match whyOf signo code with | some w => asciiText " - " ++ asciiText w | none => []) := by
  unfold codeText whyOf
  cases h : findKey signo codes with
  | some m => simp only; cases findKey code m <;> rfl
  | none =>
    simp only
    cases h0 : findKey 0 codes with
    | none => rfl
    | some m => simp only [Option.bind_some]; cases findKey code m <;> rfl

theorem sig_shown (s : SigRecord) : say " (terminated with " ++ (sigText s.bytes ++ say ")") = endText s (whyOf s.signo.toInt s.code.toInt) := by
  obtain ⟨h1, h2, h3, h4, h5⟩ := SigRecord.fields s
  unfold sigText endText
  rw [h1, h2, h3, h4, h5, codeText_eq]
  have e : asciiText " (terminated with si_signo " = say " (terminated with " ++ say "si_signo " := by decide
  rw [e]
  simp only [List.append_assoc]
  rfl

theorem why_fault : ∀ f ∈ faults, whyOf f.1 f.2.1 = some f.2.2 := by decide +kernel

theorem why_other {signo : Int} (h : signo ∉ faultSignals) (code : Int) : whyOf signo code = (findKey 0 codes).bind (findKey code) := by
  have : findKey signo codes = none ∨ signo = 0 := by
    by_cases h0 : signo = 0
    · exact .inr h0
    left
    simp only [faultSignals, List.mem_cons, List.not_mem_nil, or_false, not_or] at h
    obtain ⟨a, b, c, d, e, f⟩ := h
    unfold codes
    simp only [findKey]
    rw [if_neg (Ne.symm a), if_neg (Ne.symm h0), if_neg (Ne.symm b), if_neg (Ne.symm c), if_neg (Ne.symm d), if_neg (Ne.symm e), if_neg (Ne.symm f)]
  unfold whyOf
  rcases this with h | rfl
  · rw [h]
  · rfl

theorem why_sent {signo : Int} (h : signo ∉ faultSignals) : ∀ c ∈ senders, whyOf signo c.1 = some c.2 := by
  intro c hc
  rw [why_other h]
  revert c
  decide +kernel

/-! ### The record of it -/

theorem signal_of {ds : List NoteDesc} {ns : List NoteVal} (h : Each Represents ds ns) : ∀ n, ns.find? (fun n => decide (n.name = [0x43#8, 0x4f#8, 0x52#8, 0x45#8] ∧ n.type = 0x53494749)) = n → (∀ m, n = some m → m.desc.length = 128) →
    signalInfo ds = .ok (n.map (·.desc)) := by
  induction h with
  | nil => intro n h _; cases h; rfl
  | @cons d v ds ns hr _ ih =>
    intro n hn hl
    unfold signalInfo
    rw [hr.1, Res.bind_ok]
    by_cases c : v.name = [0x43#8, 0x4f#8, 0x52#8, 0x45#8] ∧ v.type = 0x53494749
    · rw [List.find?_cons_of_pos (by simpa using c)] at hn
      subst hn
      have hlen := hl v rfl
      rw [if_pos ⟨c.1, by rw [hr.2.1]; exact c.2⟩]
      have := represents_obj _ _ hr (by intro h; rw [h] at hlen; cases hlen)
      rw [hlen] at this
      rw [this]; rfl
    · rw [List.find?_cons_of_neg (by simpa using c)] at hn
      rw [if_neg (by rw [hr.2.1]; exact c)]
      exact ih n hn hl

/-- C90. For every core: how the process ended is what the first record of a signal in it says, and nothing if there is none. -/
theorem C90_record (io : Rdr) (h : io.WF) (h64 : io.size < 2 ^ 64 - 1) (segs : List (Phdr × List NoteVal)) (hs : ∀ s ∈ segs, s.2 ≠ [] ∧ SegmentHolds io.content s.1 s.2) (r : Option NoteVal)
    (hr : ((segs.map (·.2)).flatten).find? (fun n => decide (n.name = [0x43#8, 0x4f#8, 0x52#8, 0x45#8] ∧ n.type = 0x53494749)) = r) (hl : ∀ n, r = some n → n.desc.length = 128) :
    ∃ ds, segmentNotes io (segs.map (·.1)) = .ok ds ∧ signalInfo ds = .ok (r.map (·.desc)) := by
  obtain ⟨ds, h1, h2⟩ := C32_notes_partial io h h64 segs hs
  exact ⟨ds, h1, signal_of h2 r hr hl⟩

/-! ### Reports -/

/-- For each stack, in this order, what is known of the frames. -/
inductive StacksAre (objs : Nat → ObjDwarf) (us : Nat → List DieUnit) (cls : Nat → IClient) (frames : Stacks.Lwp → List (Nat × FrameIn)) : OMap Stacks.Lwp → List (Stacks.Lwp × List (Nat × FrameFacts × FrameState)) → Prop
  | nil : StacksAre objs us cls frames [] []
  | cons {k l m gs rest} : StackIs objs us cls (frames l) gs → StacksAre objs us cls frames m rest → StacksAre objs us cls frames ((k, l) :: m) ((l, gs) :: rest)

theorem stacks_shown {objs : Nat → ObjDwarf} {us : Nat → List DieUnit} (hobj : ∀ k, ObjOk (objs k) (us k)) {cls : Nat → IClient} (hc : ∀ k, IHistory (objs k).d (us k) (cls k)) {o : TextOpts}
    {frames : Stacks.Lwp → List (Nat × FrameIn)} {ls : List (Stacks.Lwp × List (Nat × FrameFacts × FrameState))} {t : List Byte}
    (ht : StacksText knowsSome Supported (fun k => (objs k).d) us (fun k => (objs k).line) (shows o) ls t) : ∀ {m : OMap Stacks.Lwp}, StacksAre objs us cls frames m ls →
    ∃ n, ∀ fuel, n ≤ fuel → ∀ S' : Nat → IState, (∀ k uo, Ext (((cls k).st).st uo) ((S' k).st uo)) → (∀ k, ISt (objs k).d (us k) (S' k)) → (∀ k, RangesRight (objs k).d (us k) (S' k)) →
      ∃ S, stacksText objs fuel o frames m S' = .ok (t, S) := by
  induction ht with
  | nil =>
    intro m hm
    cases hm
    exact ⟨0, fun fuel _ S' _ _ _ => ⟨S', rfl⟩⟩
  | @cons l gs t rest ts h1 _ ih =>
    intro m hm
    cases hm with
    | @cons k _ m _ _ hst hrest =>
    obtain ⟨n1, k1⟩ := frames_shown hobj h1 (stack_frames hobj hc hst)
    obtain ⟨n2, k2⟩ := ih hrest
    refine ⟨n1 + n2, fun fuel hf S' he hs hr => ?_⟩
    obtain ⟨S1, a1, a2, a3, a4⟩ := k1 fuel (by omega) S' he hs hr
    obtain ⟨S2, b1⟩ := k2 fuel (by omega) S1 (fun j uo => (he j uo).trans (a2 j uo)) a3 a4
    refine ⟨S2, ?_⟩
    unfold stacksText
    have e : stackText objs fuel o (lwpIn l) (frames l) S' = .ok (headText (lwpIn l) ++ t, S1) := by
      unfold stackText
      rw [a1, Res.bind_ok]
    rw [e, Res.bind_ok]
    simp only
    rw [b1, Res.bind_ok]
    have hh : headText (lwpIn l) = stackHeading (l.info.map (fun i => (i.tid, i.type))) l.id (l.name.map (fun n => asciiText (String.ofList n))) := by
      rw [headText_eq]
      unfold lwpIn asciiText
      cases l.name <;> simp [String.toList_ofList]
    simp only [hh, List.append_assoc]
    rfl

/-- What is said of the end of the process: the reason is that of the table for the signals that have one, and that for all signals otherwise. -/
inductive EndSaid (s : SigRecord) : Option String → Prop
  | fault {w} : (s.signo.toInt, s.code.toInt, w) ∈ faults → EndSaid s (some w)
  | sent {w} : s.signo.toInt ∉ faultSignals → (s.code.toInt, w) ∈ senders → EndSaid s (some w)

/-- C90. What is shown of a process is a line that says what it is, and how it ended if that is recorded, and then the stacks of all its threads in their order, each with its heading and all its frames, whatever was looked at
before. Missing: what C81 misses, and the reasons that are not in the two tables. -/
theorem C90_report_partial {objs : Nat → ObjDwarf} {us : Nat → List DieUnit} (hobj : ∀ k, ObjOk (objs k) (us k)) {cls : Nat → IClient} (hc : ∀ k, IHistory (objs k).d (us k) (cls k)) {o : TextOpts}
    {frames : Stacks.Lwp → List (Nat × FrameIn)} {m : OMap Stacks.Lwp} {ls : List (Stacks.Lwp × List (Nat × FrameFacts × FrameState))} (hm : StacksAre objs us cls frames m ls) {t : List Byte}
    (ht : StacksText knowsSome Supported (fun k => (objs k).d) us (fun k => (objs k).line) (shows o) ls t) (io : List Byte) :
    ∃ n, ∀ fuel, n ≤ fuel →
      (∃ S, reportText objs fuel o frames io none m (fun k => (cls k).st) = .ok (asciiText "process: " ++ (io ++ (asciiText "\n" ++ t)), S)) ∧
      ∀ s why, EndSaid s why → ∃ S, reportText objs fuel o frames io (some s.bytes) m (fun k => (cls k).st) = .ok (asciiText "process: " ++ (io ++ (endText s why ++ (asciiText "\n" ++ t))), S) := by
  obtain ⟨n, h⟩ := stacks_shown hobj hc ht hm
  refine ⟨n, fun fuel hf => ?_⟩
  obtain ⟨S, k⟩ := h fuel hf (fun k => (cls k).st) (fun k uo => Ext.refl _) (fun k => (igood_history (hobj k).ok (hobj k).refs (hc k)).st) (fun k => ranges_history (hobj k).ok (hobj k).fit (hobj k).refs (hc k))
  constructor
  · refine ⟨S, ?_⟩
    unfold reportText
    rw [k, Res.bind_ok]
    rfl
  · intro s why hw
    have e : whyOf s.signo.toInt s.code.toInt = why := by
      cases hw with
      | fault h => exact why_fault _ h
      | sent h1 h2 => exact why_sent h1 _ h2
    refine ⟨S, ?_⟩
    unfold reportText
    rw [k, Res.bind_ok]
    simp only
    rw [sig_shown, e]
    rfl

/-- C90, negation. Of a signal for faults that was sent by a process nothing is said, though it is for others. -/
theorem C90_not_sent (s : SigRecord) (h : s.signo.toInt ∈ faultSignals) (hc : ∃ w, (s.code.toInt, w) ∈ senders) : say " (terminated with " ++ (sigText s.bytes ++ say ")") = endText s none := by
  rw [sig_shown]
  congr 1
  obtain ⟨w, hw⟩ := hc
  have : ∀ g ∈ faultSignals, ∀ c ∈ senders, whyOf g c.1 = none := by decide +kernel
  exact this _ h _ hw

/-- C90, negation. Of every signal without codes for faults, code 1 is taken for that of SIGIO. For SIGCHLD (17) it says that a child exited. -/
theorem C90_not_io (s : SigRecord) (h : s.signo.toInt ∉ faultSignals) (hc : s.code.toInt = 1) : say " (terminated with " ++ (sigText s.bytes ++ say ")") = endText s (some "data input available") := by
  rw [sig_shown, why_other h, hc]
  rfl

/-- A division by zero. -/
def sigSample : SigRecord := ⟨8, 0, 1, 0, 0x401136, 0, 0, List.replicate 100 0#8⟩

theorem C90_example : EndSaid sigSample (some "integer divide by zero") ∧ sigSample.bytes.length = 128 ∧
    endText sigSample (some "integer divide by zero") = asciiText " (terminated with si_signo 8, si_code 1, si_pid 4198710, si_fd 0, si_addr 0x401136 - integer divide by zero)" :=
  ⟨.fault (by decide +kernel), by decide +kernel, by decide +kernel⟩

end Pstack.Props
