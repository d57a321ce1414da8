import Verif.Model.Stacks
import Verif.Model.StackText
/-
What is shown of a process: `pstack` (pstack.cc), with how it ended (process.cc, dead.cc).
-/
namespace Pstack.Report
open Pstack.StackText Pstack.Die Pstack.Elf Pstack.CoreNotes Pstack.Args

def NT_SIGINFO : Nat := 0x53494749

/-- `CoreProcess::getSignalInfo`. `sizeof (siginfo_t)` is 128. dead.cc:335-345 -/
def signalInfo : List NoteDesc → Res (Option (List Byte))
  | [] => .ok none
  | n :: rest => do
      let name ← n.name
      if name = CORE ∧ n.note.type = NT_SIGINFO then do
        let si ← n.data.readObj 0 128
        return some si
      else signalInfo rest

/-- `codes`, with the constants of glibc 2.39 for x86_64. process.cc:1300-1410 -/
def codes : List (Int × List (Int × String)) := [
  (11, [(1, "address not mapped to object"), (2, "invalid permissions for mapped object"), (3, "address failed bouds checks"), (5, "ADI not enabled"), (6, "disrupting MCD error"),
    (7, "precise MCD exception"), (8, "asynchronous ARM MTE error")]),
  (0, [(0, "sent by kill/sigsend/raise"), (128, "sent by kernel"), (-1, "sent by sigqueue"), (-2, "sent by timer expiration"), (-3, "sent by real time mesq state change"), (-4, "sent by AIO completion"),
    (-5, "sent by queued SIGIO"), (-6, "sent by tkill syscall"), (-7, "sent by execve killing subsidiary threads"), (-60, "sent by glibc async name lookup completion"), (1, "data input available"),
    (2, "output buffers available"), (3, "input message available"), (4, "I/O error"), (5, "high priority input available"), (6, "device disconnected")]),
  (4, [(1, "illegal opcode"), (2, "illegal operand"), (3, "illegal address mode"), (4, "illegal trap"), (5, "privileged opcode"), (6, "privileged register"), (7, "coprocessor error"),
    (8, "internal stack error"), (9, "unimplemented instruction address")]),
  (8, [(1, "integer divide by zero"), (2, "integer overflow"), (3, "floating point divide by zero"), (4, "floating point overflow"), (5, "floating point underflow"), (6, "floating point inexact result"),
    (7, "floating point invalid operation"), (8, "subscript out of range"), (14, "undiagnosed floating point exception"), (15, "trap condition")]),
  (7, [(1, "invalid address alignment"), (2, "non-existent physical address"), (3, "object specific hardware error"), (4, "hardware memory error consumed on a machine check: action required"),
    (5, "hardware memory error consumed on a machine check: action optional")]),
  (5, [(1, "process breakpoint"), (2, "process trace trap"), (3, "process taken branch trap"), (4, "hardware breakpoint/watchpoint"), (5, "undiagnosed trap")]),
  (31, [])]

/-- `map::find` -/
def findKey {α : Type} (k : Int) : List (Int × α) → Option α
  | [] => none
  | (k', v) :: rest => if k' = k then some v else findKey k rest

/-- What is said of a code. process.cc:1430-1442 -/
def codeText (signo code : Int) : List Byte :=
  match (match findKey signo codes with | some m => some m | none => findKey 0 codes) with
  | none => []
  | some m => match findKey code m with
    | none => []
    | some t => say " - " ++ say t

/-- An `int` of `siginfo_t`. -/
def int32 (si : List Byte) (off : Nat) : Int := (BitVec.ofNat 32 (field si off 4)).toInt

/-- `operator << (std::ostream &, const SigInfo &)`: `si_signo`, `si_code`, `si_pid`, `si_fd` and `si_addr` are at 0, 8, 16, 24 and 16. `HAVE_SIGXX_NP` is never defined. process.cc:1297-1444 -/
def sigText (si : List Byte) : List Byte :=
  say "si_signo " ++ (dec (int32 si 0) ++ (say ", si_code " ++ (dec (int32 si 8) ++ (say ", si_pid " ++ (dec (int32 si 16) ++ (say ", si_fd " ++ (dec (int32 si 24) ++ (say ", si_addr " ++
    (pointer (field si 16 8) ++ codeText (int32 si 0) (int32 si 8))))))))))

/-- A `Lwp` as it is shown. -/
def lwpIn (l : Stacks.Lwp) : LwpIn := ⟨l.info.map (fun i => (i.tid, i.type)), l.id, l.name.map (·.map (fun c => BitVec.ofNat 8 c.toNat))⟩

/-- The stacks. `frames` is what is found out of each frame for `dumpFrameText`. pstack.cc:45-48 -/
def stacksText (objs : Nat → ObjDwarf) (fuel : Nat) (o : TextOpts) (frames : Stacks.Lwp → List (Nat × FrameIn)) : OMap Stacks.Lwp → (Nat → IState) → Res (List Byte × (Nat → IState))
  | [], S => .ok ([], S)
  | (_, l) :: rest, S => do
      let (t, S) ← stackText objs fuel o (lwpIn l) (frames l) S
      let (ts, S) ← stacksText objs fuel o frames rest S
      .ok (t ++ (say "\n" ++ ts), S)

/-- `pstack`, without JSON; `io` is what describes the process. pstack.cc:32-50 -/
def reportText (objs : Nat → ObjDwarf) (fuel : Nat) (o : TextOpts) (frames : Stacks.Lwp → List (Nat × FrameIn)) (io : List Byte) (sig : Option (List Byte)) (m : OMap Stacks.Lwp) (S : Nat → IState) :
    Res (List Byte × (Nat → IState)) := do
  let (t, S) ← stacksText objs fuel o frames m S
  .ok (say "process: " ++ (io ++ ((match sig with | some si => say " (terminated with " ++ (sigText si ++ say ")") | none => []) ++ (say "\n" ++ t))), S)

end Pstack.Report
