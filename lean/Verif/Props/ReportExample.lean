import Verif.Props.Report
import Verif.Props.StackTextExample
/-
A report on a process with two threads, for C90.
-/
namespace Pstack.Props
open Pstack.Die Pstack.Spec Pstack.StackText Pstack.Report Pstack.Elf

/-- Two threads; what is found of their frames is as in C81. -/
def reportOne : Stacks.Lwp := ⟨42, [], some "x".toList, some ⟨0x7f00, 42, 1⟩⟩
def reportTwo : Stacks.Lwp := ⟨43, [], none, none⟩
def reportFrames (y : DIE) (l : Stacks.Lwp) : List (Nat × FrameIn) := if l.id = 42 then [(0, traceIn y)] else [(0, traceInOut)]

/-- The text, in lines. -/
def reportSample : List Byte := asciiText "process: core.42 (terminated with si_signo 8, si_code 1, si_pid 4198710, si_fd 0, si_addr 0x401136 - integer divide by zero)\n" ++
  (asciiText "thread: 0x7f00, type: 1, lwp: 42, name: x\n#0  inlined            in g at g.h:7\n#0  0x0000000000401015 in f(a=-3)+21 in /bin/x at a.c:12\n\n" ++
  asciiText "lwp: 43\n#0  0x0000000000007000 no information for frame\n\n")

theorem C90_example_report : ∃ y s, infoOffsetToDIE traceSections 34 IState.empty = .ok (y, s) ∧ ∃ n, ∀ fuel, n ≤ fuel →
    ∃ S, reportText (fun _ => traceObj) fuel traceOpts (reportFrames y) (asciiText "core.42") (some sigSample.bytes) [(42, reportOne), (43, reportTwo)] (fun _ => s) = .ok (reportSample, S) := by
  obtain ⟨y, s, cl, h1, h2, h3, rfl⟩ := trace_found (trace_at 3 rfl)
  refine ⟨y, _, h1, ?_⟩
  have hf : FrameFor traceInOut traceOut := ⟨rfl, rfl, rfl, rfl, rfl, rfl, rfl, trivial⟩
  have hx : StacksText knowsSome Supported (fun _ => traceSections) (fun _ => [traceUnit]) (fun _ => traceObj.line) (shows traceOpts)
      [(reportOne, [(0, traceFacts, callState 0x1015)]), (reportTwo, [(0, traceOut, callState 0x1015)])] _ :=
    .cons (.cons (trace_text 0) .nil) (.cons (.cons (.outside rfl) .nil) .nil)
  have hm : StacksAre (fun _ => traceObj) (fun _ => [traceUnit]) (fun _ => cl) (reportFrames y) [(42, reportOne), (43, reportTwo)]
      [(reportOne, [(0, traceFacts, callState 0x1015)]), (reportTwo, [(0, traceOut, callState 0x1015)])] :=
    .cons (.cons (trace_frame y) (call_frame (pc := 0x1015) (by decide)) h3 .nil) (.cons (.cons hf (call_frame (pc := 0x1015) (by decide)) trivial .nil) .nil)
  obtain ⟨n, hn⟩ := C90_report_partial (objs := fun _ => traceObj) (us := fun _ => [traceUnit]) (fun _ => trace_obj) (cls := fun _ => cl) (fun _ => h2) (o := traceOpts) hm hx (asciiText "core.42")
  refine ⟨n, fun fuel hfu => ?_⟩
  obtain ⟨S, k⟩ := (hn fuel hfu).2 sigSample _ C90_example.1
  exact ⟨S, k.trans (congrArg (fun t => Res.ok (t, S)) (by decide +kernel))⟩

end Pstack.Props
