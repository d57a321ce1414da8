import Verif.Basic
/-
The command: `emain` and `main` (pstack.cc) after the options have been parsed (these are in Model/Flags.lean), and `Process::load` of an argument (process.cc).
-/
namespace Pstack.Main

/-- The digits at the front, and what they stand for, starting with `n`. -/
def takeDigits : List Char → Nat → Nat × List Char
  | [], n => (n, [])
  | c :: rest, n => if '0' ≤ c ∧ c ≤ '9' then takeDigits rest (10 * n + (c.toNat - '0'.toNat)) else (n, c :: rest)

/-- Whether there is a minus sign, and what follows. -/
def splitSign : List Char → Bool × List Char
  | '-' :: r => (true, r)
  | r => (false, r)

/-- `std::from_chars` for an `int`: the number and what follows it; none if there is no number, or it does not fit. process.cc:1202 -/
def fromChars (t : List Char) : Option (Int × List Char) :=
  let (neg, t) := splitSign t
  let (n, rest) := takeDigits t 0
  if t.length = rest.length then none
  else
    let z : Int := if neg then -(n : Int) else n
    if -2 ^ 31 ≤ z ∧ z < 2 ^ 31 then some (z, rest) else none

/-- The argument as a process id. process.cc:1202-1205 -/
def pidOf (id : List Char) : Option Int :=
  match fromChars id with
  | some (n, []) => some n
  | _ => none

/-- What is traced. -/
inductive Target
  | process (pid : Int)
  | core (file : List Char)
  deriving DecidableEq

/-- The executable to assume, by the file it was read from. -/
abbrev Exec := Option (List Char)

/-- What is outside. -/
structure World where
  /-- `kill(pid, 0) == 0` -/
  alive : Int → Bool
  /-- The ELF type of a file; none if it cannot be read as an ELF object, and there is an exception. -/
  elfType : List Char → Option Nat
  /-- `openImage` does not throw. -/
  image : List Char → Bool
  /-- `LiveProcess` or `CoreProcess` can be made, and its `load()` does not throw. -/
  opens : Target → Exec → Bool
  /-- `pystack`: whether this is a Python process, whose stacks have been printed; none if there is an exception. -/
  python : Target → Exec → Option Bool
  /-- `pstack`; false if there is an exception. -/
  native : Target → Exec → Bool

structure Opts where
  /-- `-p` -/
  python : Bool
  /-- `-A` -/
  all : Bool
  /-- `-b`, with a delay that is not 0 -/
  repeats : Bool

/-- What is printed: stacks, and reports of failures. -/
inductive Act
  | python (t : Target) (e : Exec)
  | native (t : Target) (e : Exec)
  | failed (arg : List Char)
  deriving DecidableEq

/-- `ET_CORE` -/
def etCore : Nat := 4

/-- `Process::load`: a process, or none for an ELF object that is not a core; no result if there is an exception. process.cc:1199-1222 -/
def load (w : World) (exec : Exec) (id : List Char) : Option (Option Target) :=
  match pidOf id with
  | some pid => if w.alive pid then (if w.opens (.process pid) exec then some (some (.process pid)) else none) else none
  | none =>
      match w.elfType id with
      | none => none
      | some ty => if ty ≠ etCore then some none else if w.opens (.core id) exec then some (some (.core id)) else none

/-- The native stacks; whether there is an exception. pstack.cc:414-420 -/
def doNative (w : World) (o : Opts) (t : Target) (exec : Exec) : List Act × Bool :=
  if o.python then ([], false)
  else if w.native t exec then ([.native t exec], false) else ([], true)

/-- One turn of the loop of `doStack`. Stacks that are printed before an exception are not counted. pstack.cc:407-420 -/
def once (w : World) (o : Opts) (t : Target) (exec : Exec) : List Act × Bool :=
  if o.python ∨ o.all then
    match w.python t exec with
    | none => ([], true)
    | some isPython =>
        if o.python ∧ isPython = false then ([], true)
        else
          let r := doNative w o t exec
          ((if isPython then [.python t exec] else []) ++ r.1, r.2)
  else doNative w o t exec

/-- `doStack`; `interrupted` will be found set after so many tests of it. The result: what is printed, whether there is an exception, and how many tests are left.
pstack.cc:405-426 -/
def doStack (w : World) (o : Opts) (t : Target) (exec : Exec) : Nat → List Act × Bool × Nat
  | 0 => ([], false, 0)
  | n + 1 =>
      let r := once w o t exec
      if r.2 then (r.1, true, n)
      else if o.repeats then
        let q := doStack w o t exec n
        (r.1 ++ q.1, q.2)
      else (r.1, false, n)

/-- The loop over the arguments: what is printed, and whether anything failed. pstack.cc:427-439 -/
def loop (w : World) (o : Opts) : List (List Char) → Exec → Nat → List Act × Bool
  | [], _, _ => ([], false)
  | arg :: rest, exec, left =>
      match load w exec arg with
      | none =>
          let r := loop w o rest exec left
          (.failed arg :: r.1, true)
      | some none =>
          if w.image arg then loop w o rest (some arg) left
          else
            let r := loop w o rest exec left
            (.failed arg :: r.1, true)
      | some (some t) =>
          let s := doStack w o t exec left
          let r := loop w o rest exec s.2.2
          if s.2.1 then (s.1 ++ .failed arg :: r.1, true) else (s.1 ++ r.1, r.2)

/-- `EX_USAGE`, `EX_SOFTWARE` -/
def exUsage : Nat := 64
def exSoftware : Nat := 70

/-- `emain` after the options: `execName` is the argument of `-e`, `command` is true if there is one to be run (Model/Child.lean). An exception is for `main`. pstack.cc:378-440 -/
def emain (w : World) (o : Opts) (exitCode : Option Nat) (execName : Exec) (command : Bool) (args : List (List Char)) (left : Nat) : List Act × Option Nat :=
  match exitCode with
  | some c => ([], some c)
  | none =>
      let after (exec : Exec) : List Act × Option Nat :=
        if command then ([], some 0)
        else if args = [] then ([], some exUsage)
        else
          let r := loop w o args exec left
          (r.1, some (if r.2 then exSoftware else 0))
      match execName with
      | none => after none
      | some e => if w.image e then after (some e) else ([], none)

/-- `main`. pstack.cc:444-470 -/
def main (w : World) (o : Opts) (exitCode : Option Nat) (execName : Exec) (command : Bool) (args : List (List Char)) (left : Nat) : List Act × Nat :=
  match emain w o exitCode execName command args left with
  | (acts, some c) => (acts, c)
  | (acts, none) => (acts, exSoftware)

end Pstack.Main
