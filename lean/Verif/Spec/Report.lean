import Verif.Spec.StackText
import Verif.Spec.CoreNotes
import Verif.Model.Stacks
/-
What is shown of a process.
-/
namespace Pstack.Spec
open Pstack.Die

/-- `siginfo_t` of x86_64 Linux: the number of the signal, its code, and what else is there; the process that sent it, or the address of a fault, and a file, share a place. -/
structure SigRecord where
  signo : BitVec 32
  errno : BitVec 32
  code : BitVec 32
  pad : BitVec 32
  lower : BitVec 32
  upper : BitVec 32
  fd : BitVec 32
  rest : List Byte

def SigRecord.bytes (s : SigRecord) : List Byte :=
  leBytes 4 s.signo.toNat ++ (leBytes 4 s.errno.toNat ++ (leBytes 4 s.code.toNat ++ (leBytes 4 s.pad.toNat ++ (leBytes 4 s.lower.toNat ++ (leBytes 4 s.upper.toNat ++ (leBytes 4 s.fd.toNat ++ s.rest))))))

/-- Why a signal is sent: the codes of SIGSEGV (11), SIGILL (4), SIGFPE (8), SIGBUS (7) and SIGTRAP (5), as in sigaction(2), in the words of the program. -/
def faults : List (Int × Int × String) := [
  (11, 1, "address not mapped to object"), (11, 2, "invalid permissions for mapped object"), (11, 3, "address failed bouds checks"),
  (4, 1, "illegal opcode"), (4, 2, "illegal operand"), (4, 3, "illegal address mode"), (4, 4, "illegal trap"), (4, 5, "privileged opcode"), (4, 6, "privileged register"), (4, 7, "coprocessor error"),
  (4, 8, "internal stack error"),
  (8, 1, "integer divide by zero"), (8, 2, "integer overflow"), (8, 3, "floating point divide by zero"), (8, 4, "floating point overflow"), (8, 5, "floating point underflow"),
  (8, 6, "floating point inexact result"), (8, 7, "floating point invalid operation"), (8, 8, "subscript out of range"),
  (7, 1, "invalid address alignment"), (7, 2, "non-existent physical address"), (7, 3, "object specific hardware error"), (7, 4, "hardware memory error consumed on a machine check: action required"),
  (7, 5, "hardware memory error consumed on a machine check: action optional"),
  (5, 1, "process breakpoint"), (5, 2, "process trace trap"), (5, 3, "process taken branch trap"), (5, 4, "hardware breakpoint/watchpoint")]

/-- Why any signal may be sent: SI_USER, SI_KERNEL, SI_QUEUE, SI_TIMER, SI_MESGQ, SI_ASYNCIO, SI_SIGIO, SI_TKILL. -/
def senders : List (Int × String) := [(0, "sent by kill/sigsend/raise"), (128, "sent by kernel"), (-1, "sent by sigqueue"), (-2, "sent by timer expiration"), (-3, "sent by real time mesq state change"),
  (-4, "sent by AIO completion"), (-5, "sent by queued SIGIO"), (-6, "sent by tkill syscall")]

/-- The signals that have codes of their own for faults (and SIGSYS, 31). -/
def faultSignals : List Int := [11, 4, 8, 7, 5, 31]

/-- How a process ended: the fields of the record, and why. -/
def endText (s : SigRecord) (why : Option String) : List Byte :=
  asciiText " (terminated with si_signo " ++ (decimalText s.signo.toInt ++ (asciiText ", si_code " ++ (decimalText s.code.toInt ++ (asciiText ", si_pid " ++ (decimalText s.lower.toInt ++
    (asciiText ", si_fd " ++ (decimalText s.fd.toInt ++ (asciiText ", si_addr " ++ (addressText (s.lower.toNat + 2 ^ 32 * s.upper.toNat) ++
    ((match why with | some w => asciiText " - " ++ asciiText w | none => []) ++ asciiText ")"))))))))))

/-- The stacks: for each, the heading and its frames, and an empty line. -/
inductive StacksText (k : Knows) (op : LineParams → LineOp → Prop) (d : Nat → Sections) (xs : Nat → List DieUnit) (line : Nat → Option (List Byte)) (w : ShowWhat) :
    List (Stacks.Lwp × List (Nat × FrameFacts × FrameState)) → List Byte → Prop
  | nil : StacksText k op d xs line w [] []
  | cons {l gs t rest ts} : FramesText k op d xs line w 0 gs t → StacksText k op d xs line w rest ts →
      StacksText k op d xs line w ((l, gs) :: rest)
        (stackHeading (l.info.map (fun i => (i.tid, i.type))) l.id (l.name.map (fun n => asciiText (String.ofList n))) ++ (t ++ (asciiText "\n" ++ ts)))

end Pstack.Spec
