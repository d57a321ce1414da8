import Verif.Basic
/-
Stopping and resuming the threads of a process: the calls made on it, what the kernel answers, what the kernel is asked. Independent
of how pstack keeps its accounts.
-/
namespace Pstack.Spec

/-- An answer of the kernel to waiting for a thread: interrupted; an error; not stopped (it ended); stopped by another signal, with
the error (0 for none) of letting it continue with that signal; stopped as wanted. -/
inductive WaitRes where
  | interrupted
  | failed (err : Nat) (h : err ≠ 0)
  | notStopped
  | signalled (sig contErr : Nat)
  | stopped
  deriving Repr, DecidableEq

/-- What the kernel answers while a thread is being stopped: the error (0 for none) of attaching, then of the waits. -/
structure StopOutcome where
  attachErr : Nat
  waits : List WaitRes
  deriving Repr, DecidableEq

/-- The thread ends up stopped and attached: attaching works, and the wanted stop comes after interruptions and signals that were
passed on. -/
def StopOutcome.Succeeds (o : StopOutcome) : Prop :=
  o.attachErr = 0 ∧ ∃ pre post, o.waits = pre ++ .stopped :: post ∧ ∀ w ∈ pre, w = .interrupted ∨ ∃ s, w = .signalled s 0

/-- What the kernel is asked. -/
inductive Req where
  | attach (t : Nat) (ok : Bool)
  | detach (t : Nat)
  | cont (t sig : Nat)
  | sigcont (t : Nat)
  | flush
  deriving Repr, DecidableEq

/-- Whether a thread is attached after a series of requests. -/
def attachedAfter (t : Nat) (reqs : List Req) : Bool :=
  reqs.foldl (fun a r => match r with
    | .attach t' true => if t' = t then true else a
    | .detach t' => if t' = t then false else a
    | _ => a) false

/-- Threads are attached only when they are not, and detached only when they are. -/
def Orderly (log : List Req) : Prop :=
  (∀ pre t ok post, log = pre ++ .attach t ok :: post → attachedAfter t pre = false) ∧
  (∀ pre t post, log = pre ++ .detach t :: post → attachedAfter t pre = true)

/-- A call on the process. Stopping it as a whole is described by what each reading of the list of its threads returned. -/
inductive LiveCall where
  | stop (t : Nat) (o : StopOutcome)
  | resume (t : Nat)
  | stopAll (scans : List (List Nat)) (outs : Nat → StopOutcome)
  | resumeAll

/-- A stop of thread `t` with outcome `o`: how many stops are pending, and whether the first of them worked. -/
def oneStop (o : StopOutcome) (p : Nat × Prop) : Nat × Prop := if p.1 = 0 then (1, o.Succeeds) else (p.1 + 1, p.2)

/-- The effect of a call on thread `t`. -/
def LiveCall.effect (pid t : Nat) (p : Nat × Prop) : LiveCall → Nat × Prop
  | .stop t' o => if t' = t then oneStop o p else p
  | .resume t' => if t' = t then (p.1 - 1, p.2) else p
  | .stopAll scans outs => if t = pid ∨ (t ≠ 0 ∧ t ∈ scans.flatten) then oneStop (outs t) p else p
  | .resumeAll => (p.1 - 1, p.2)

/-- Pending stops of `t` after a history, and whether the first of them worked. The process may start out stopped. -/
def pending (pid : Nat) (already : Bool) (h : List LiveCall) (t : Nat) : Nat × Prop :=
  h.foldl (LiveCall.effect pid t) (if already ∧ t = pid then (1, True) else (0, False))

/-- Every resume undoes a stop: one of a single thread only if a stop of it is pending; one of the whole process only if no thread has
been resumed singly for the last time. -/
def Matched (pid : Nat) (already : Bool) (h : List LiveCall) : Prop :=
  (∀ pre t post, h = pre ++ .resume t :: post → 0 < (pending pid already pre t).1) ∧
  (∀ pre post, h = pre ++ .resumeAll :: post → ∀ t, .resume t ∈ pre → 0 < (pending pid already pre t).1)

end Pstack.Spec
