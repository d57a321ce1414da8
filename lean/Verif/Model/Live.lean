import Verif.Model.Map
import Verif.Spec.Live
/-
Model of stopping and resuming the threads of a live process: live.cc. The kernel's answers are inputs, the requests made to it are
recorded. `stopCount` is an integer without bound (an `int` in the code), the time of stopping and the debug output are left out.
-/
namespace Pstack.Live
open Pstack.Spec

/-- struct Lwp. proc.h:350-354. -/
structure Lwp where
  stopCount : Int
  ptraceErr : Nat
  deriving Repr, DecidableEq

/-- class LiveProcess: `pid`, `stoppedLWPs`; the requests made so far. proc.h:347-356. -/
structure State where
  pid : Nat
  lwps : OMap Lwp
  log : List Req
  deriving Repr

/-- The constructor. A process that is already stopped was attached to before. live.cc:37-43. -/
def start (pid : Nat) (already : Bool) : State :=
  if already then ⟨pid, [(pid, ⟨1, 0⟩)], [.attach pid true]⟩ else ⟨pid, [], []⟩

/-- The loop waiting for the thread to stop: `ptraceErr` after it and the requests made; nothing if it has not finished.
EINVAL is 22. live.cc:197-231. -/
def waitLoop (t : Nat) : List WaitRes → Option (Nat × List Req)
  | [] => none
  | .interrupted :: ws => waitLoop t ws
  | .failed e _ :: _ => some (e, [])
  | .notStopped :: _ => some (22, [])
  | .signalled sig contErr :: ws =>
      if contErr = 0 then (waitLoop t ws).map (fun r => (r.1, .cont t sig :: r.2))
      else some (contErr, [.cont t sig])
  | .stopped :: _ => some (0, [])

/-- `LiveProcess::stop`. live.cc:180-235. -/
def stop (t : Nat) (o : StopOutcome) (s : State) : Option State :=
  let tcb := (OMap.lookup t s.lwps).getD ⟨0, 0⟩
  if tcb.stopCount ≠ 0 then some { s with lwps := OMap.assign t { tcb with stopCount := tcb.stopCount + 1 } s.lwps }
  else if o.attachErr ≠ 0 then
    some { s with lwps := OMap.assign t ⟨tcb.stopCount + 1, o.attachErr⟩ s.lwps, log := s.log ++ [.attach t false] }
  else
    (waitLoop t o.waits).map (fun r =>
      { s with
        lwps := OMap.assign t ⟨tcb.stopCount + 1, r.1⟩ s.lwps,
        log := s.log ++ (.attach t true :: r.2 ++ if r.1 = 0 then [] else [.sigcont t, .detach t]) })

/-- `LiveProcess::resume`. live.cc:58-83. -/
def resume (t : Nat) (s : State) : State :=
  match OMap.lookup t s.lwps with
  | none => s
  | some tcb =>
      let tcb := { tcb with stopCount := tcb.stopCount - 1 }
      let s := { s with lwps := OMap.assign t tcb s.lwps }
      if tcb.stopCount ≠ 0 then s
      else if tcb.ptraceErr ≠ 0 then s
      else { s with log := s.log ++ [.detach t, .flush] }

/-- The loop of `resumeProcess`. live.cc:174-175. -/
def resumeKeys (ks : List Nat) (s : State) : State := ks.foldl (fun s t => resume t s) s

/-- `LiveProcess::resumeProcess`. live.cc:171-177. -/
def resumeProcess (s : State) : State :=
  let s := resumeKeys (s.lwps.map (·.1)) s
  { s with lwps := s.lwps.filter (fun e => e.2.stopCount ≠ 0) }

/-- One reading of the list of threads. `suspended` is kept as a list. live.cc:150-160. -/
def scan (outs : Nat → StopOutcome) : List Nat → List Nat → State → Option (List Nat × State)
  | [], suspended, s => some (suspended, s)
  | t :: ts, suspended, s =>
      if t = 0 ∨ t ∈ suspended then scan outs ts suspended s
      else (stop t (outs t) s).bind (fun s => scan outs ts (t :: suspended) s)

/-- The loop: read the list until a reading gives nothing new. `scans` is what the readings return, no more and no less than are
made; a list that cannot be read counts as empty. live.cc:145-166. -/
def scanLoop (outs : Nat → StopOutcome) : List (List Nat) → List Nat → State → Option State
  | [], _, _ => none
  | ts :: more, suspended, s =>
      (scan outs ts suspended s).bind (fun r =>
        if r.1.length = suspended.length then (if more = [] then some r.2 else none)
        else scanLoop outs more r.1 r.2)

/-- `LiveProcess::stopProcess`. live.cc:126-169. -/
def stopProcess (scans : List (List Nat)) (outs : Nat → StopOutcome) (s : State) : Option State :=
  (stop s.pid (outs s.pid) s).bind (fun s => scanLoop outs scans [s.pid] s)

/-- A call; nothing if it does not return. -/
def call (s : State) : LiveCall → Option State
  | .stop t o => stop t o s
  | .resume t => some (resume t s)
  | .stopAll scans outs => stopProcess scans outs s
  | .resumeAll => some (resumeProcess s)

/-- A history of calls. -/
def run (s : State) : List LiveCall → Option State
  | [] => some s
  | c :: cs => (call s c).bind (fun s => run s cs)

/-- One step of the destructor. live.cc:117-120. -/
def drop1 (s : State) (t : Nat) : State :=
  match OMap.lookup t s.lwps with
  | none => s
  | some tcb => if tcb.stopCount > 0 then resume t { s with lwps := OMap.assign t { tcb with stopCount := 1 } s.lwps } else s

/-- The destructor. live.cc:115-122. -/
def destroy (s : State) : State := (s.lwps.map (·.1)).foldl drop1 s

/-- `listLWPs`: the threads it reports. live.cc:86-92. -/
def listLWPs (s : State) : List Nat := (s.lwps.filter (fun e => e.2.ptraceErr = 0)).map (·.1)

/-- `getRegs` stops the thread around the request. live.cc:50-56. -/
def getRegs (t : Nat) (o : StopOutcome) (s : State) : Option State := (stop t o s).map (resume t)

end Pstack.Live
