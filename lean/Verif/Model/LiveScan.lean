import Verif.Basic
/-
Model of stopping a whole process while its threads go on running: `LiveProcess::stopProcess` (live.cc:126-169) interleaved with the
process and with the kernel's listing of its threads. Threads are created by running threads, at any time, with ids never used before.
They end at any time unless stopped; one that has ended may stay in the list (the leader does while there are others). A reading of the
list is made in pieces: the kernel lists threads, pstack takes the entries later.
-/
namespace Pstack.LiveScan

structure World where
  /-- the threads in the kernel's list -/
  alive : List Nat
  /-- of these, the ones that have ended -/
  ended : List Nat
  /-- all ids ever used -/
  used : List Nat
  /-- threads stopped by pstack, so not running -/
  stopped : List Nat
  /-- threads whose stop failed and was recorded (`ptraceErr`) -/
  failed : List Nat
  /-- `suspended` -/
  suspended : List Nat
  /-- the thread `stop` is at work on -/
  stopping : Option Nat
  /-- `suspended` as this reading of the list began; its size is `lastStopCount` -/
  before : List Nat
  /-- the threads the kernel has listed in this reading -/
  listed : List Nat
  /-- of these, the ones pstack has not come to yet -/
  queue : List Nat
  /-- `stopProcess` is about to return, or has -/
  done : Bool

/-- `stop(pid)` has been called. live.cc:135-136. -/
def initial (pid : Nat) (threads : List Nat) : World :=
  ⟨threads, [], threads, [], [], [pid], some pid, [pid], [], [], false⟩

/-- `endOk` is what the kernel guarantees when a reading of the list comes to its end, `failOk` when stopping a thread fails. -/
inductive Step (endOk : World → Prop) (failOk : World → Nat → Prop) : World → World → Prop
  /-- the process: a running thread creates another -/
  | create (w : World) (p t : Nat) : p ∈ w.alive → p ∉ w.stopped → p ∉ w.ended → t ∉ w.used →
      Step endOk failOk w { w with alive := w.alive ++ [t], used := t :: w.used }
  /-- the process: a thread ends and is gone -/
  | exit (w : World) (p : Nat) : p ∉ w.stopped → p ∉ w.ended →
      Step endOk failOk w { w with alive := w.alive.filter (· ≠ p) }
  /-- the process: a thread ends and stays in the list -/
  | zombie (w : World) (p : Nat) : p ∈ w.alive → p ∉ w.stopped → Step endOk failOk w { w with ended := p :: w.ended }
  /-- the process is killed -/
  | kill (w : World) : Step endOk failOk w { w with alive := [] }
  /-- the kernel lists a thread, in `readdir`. live.cc:151 -/
  | list (w : World) (t : Nat) : w.done = false → w.stopping = none → t ∈ w.alive →
      Step endOk failOk w { w with listed := t :: w.listed, queue := w.queue ++ [t] }
  /-- the next entry is of a thread come across before. live.cc:151-156 -/
  | known (w : World) (t : Nat) (q : List Nat) : w.done = false → w.stopping = none → w.queue = t :: q → t ∈ w.suspended →
      Step endOk failOk w { w with queue := q }
  /-- the next entry is of another thread. live.cc:151-157 -/
  | fresh (w : World) (t : Nat) (q : List Nat) : w.done = false → w.stopping = none → w.queue = t :: q → t ∉ w.suspended →
      Step endOk failOk w { w with queue := q, suspended := t :: w.suspended, stopping := some t }
  /-- `stop` succeeds. live.cc:226-230 -/
  | stopOk (w : World) (t : Nat) : w.stopping = some t → t ∈ w.alive → t ∉ w.ended →
      Step endOk failOk w { w with stopped := t :: w.stopped, stopping := none }
  /-- `stop` fails. live.cc:186-190, 232-234 -/
  | stopFail (w : World) (t : Nat) : w.stopping = some t → failOk w t →
      Step endOk failOk w { w with failed := t :: w.failed, stopping := none }
  /-- the list ends and something new was found: read it again. live.cc:147, 165 -/
  | again (w : World) : w.done = false → w.stopping = none → w.queue = [] → endOk w → w.suspended.length ≠ w.before.length →
      Step endOk failOk w { w with listed := [], before := w.suspended }
  /-- the list ends and nothing new was found. live.cc:165 -/
  | finish (w : World) : w.done = false → w.stopping = none → w.queue = [] → endOk w → w.suspended.length = w.before.length →
      Step endOk failOk w { w with done := true }

/-- Any number of steps. -/
inductive Steps (endOk : World → Prop) (failOk : World → Nat → Prop) : World → World → Prop
  | refl (w : World) : Steps endOk failOk w w
  | step {a b c : World} : Steps endOk failOk a b → Step endOk failOk b c → Steps endOk failOk a c

/-- Linux lists threads oldest first and puts new ones last, so when a reading ends every thread has been listed - unless a thread
listed in this reading has gone since, which can make the reading end early or skip some. (fs/proc/base.c: proc_task_readdir.) -/
def LinuxEnd (w : World) : Prop := (∀ t ∈ w.alive, t ∈ w.listed) ∨ ∃ x ∈ w.listed, x ∉ w.alive

/-- Stopping a thread fails only if it has ended. -/
def OnlyEnded (w : World) (t : Nat) : Prop := t ∉ w.alive ∨ t ∈ w.ended

/-- It may fail for any reason. -/
def AnyReason (_ : World) (_ : Nat) : Prop := True

end Pstack.LiveScan
