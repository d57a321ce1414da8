import Verif.Model.Maps
/-
The command that is run with `-s`: `startChild` (pstack.cc).
-/
namespace Pstack.Child

abbrev Text := List Char

/-! ### The arguments -/

/-- `cmd.find(' ', off)` -/
def findBlank (cmd : Text) (off : Nat) : Option Nat := ((cmd.drop off).findIdx? (· == ' ')).map (off + ·)

/-- The loop that splits the command. The first argument bounds the number of turns; there are no more than characters, and one. pstack.cc:59-68 -/
def splitLoop (cmd : Text) : Nat → Nat → List Text
  | 0, _ => []
  | n + 1, off =>
      match findBlank cmd off with
      | none => [cmd.drop off]
      | some pos => (cmd.drop off).take pos :: splitLoop cmd n (pos + 1)

/-- The arguments of `execvp`. pstack.cc:58-68, 76-80 -/
def splitArgs (cmd : Text) : List Text := splitLoop cmd (cmd.length + 1) 0

/-! ### The signals of the child -/

/-- `PATH_MAX` -/
def pathMax : Nat := 4096

/-- The lines `fgets` gives: `cur` is what has been read of this line, last first, and `room` how many characters there is room for. pstack.cc:117 -/
def getLines : Nat → Text → Text → List Text
  | _, cur, [] => if cur = [] then [] else [cur.reverse]
  | room, cur, c :: rest => if c = '\n' ∨ room ≤ 1 then (c :: cur).reverse :: getLines (pathMax - 1) [] rest else getLines (room - 1) (c :: cur) rest

/-- `isspace` -/
def isSpace (c : Char) : Bool := c = ' ' || c = '\t' || c = '\n' || c = '\x0b' || c = '\x0c' || c = '\r'

/-- A hexadecimal digit. -/
def hexDigit (c : Char) : Option Nat :=
  if '0' ≤ c ∧ c ≤ '9' then some (c.toNat - 48)
  else if 'a' ≤ c ∧ c ≤ 'f' then some (c.toNat - 97 + 10)
  else if 'A' ≤ c ∧ c ≤ 'F' then some (c.toNat - 65 + 10)
  else none

/-- The number the digits in front stand for, starting with `n`. -/
def hexDigits (n : Nat) : Text → Nat
  | [] => n
  | c :: rest => match hexDigit c with
    | some d => hexDigits (16 * n + d) rest
    | none => n

/-- Drops `0x` before a digit. -/
def dropX : Text → Text
  | '0' :: x :: d :: rest => if (x = 'x' ∨ x = 'X') ∧ (hexDigit d).isSome then d :: rest else '0' :: x :: d :: rest
  | t => t

/-- The sign and what follows. -/
def sign : Text → Bool × Text
  | '-' :: r => (true, r)
  | '+' :: r => (false, r)
  | r => (false, r)

/-- `strtoull(…, 16)`. -/
def strtoull (t : Text) : BitVec 64 :=
  let s := sign (t.dropWhile isSpace)
  let n := hexDigits 0 (dropX s.2)
  if n ≥ 2 ^ 64 then BitVec.allOnes 64 else if s.1 then -BitVec.ofNat 64 n else BitVec.ofNat 64 n

/-- `"SigBlk:\t"` and so on. -/
def tagBlk : Text := ['S', 'i', 'g', 'B', 'l', 'k', ':', '\t']
def tagCgt : Text := ['S', 'i', 'g', 'C', 'g', 't', ':', '\t']
def tagIgn : Text := ['S', 'i', 'g', 'I', 'g', 'n', ':', '\t']

structure Masks where
  blk : BitVec 64
  cgt : BitVec 64
  ign : BitVec 64

/-- One line of the file. pstack.cc:118-123 -/
def maskLine (m : Masks) (line : Text) : Masks :=
  if line.take 8 = tagBlk then { m with blk := strtoull (line.drop 8) }
  else if line.take 8 = tagCgt then { m with cgt := strtoull (line.drop 8) }
  else if line.take 8 = tagIgn then { m with ign := strtoull (line.drop 8) }
  else m

/-- The masks in the status file of the child. pstack.cc:116-124 -/
def masks (status : Text) : Masks := (getLines (pathMax - 1) [] status).foldl maskLine ⟨-1, -1, -1⟩

/-- `SIGTRAP`, `SIGSTOP` -/
def sigTrap : Nat := 5
def sigStop : Nat := 19

/-- `1 << (sig - 1)` as an `int`, converted to `unsigned long`; undefined if the shift is. pstack.cc:129 -/
def sigBit (sig : Nat) : Option (BitVec 64) := if 1 ≤ sig ∧ sig ≤ 32 then some ((1#32 <<< (sig - 1)).signExtend 64) else none

/-- The signals that do not end the child. pstack.cc:125-126 -/
def handled (m : Masks) : BitVec 64 := m.blk ||| m.cgt ||| m.ign ||| 1#64 <<< (sigTrap - 1)

/-! ### The parent -/

/-- What `wait` reports. -/
inductive Wait
  /-- The child has stopped: the signal, the content of its status file, and whether `ptrace` will succeed. -/
  | stopped (sig : Nat) (status : Text) (ptraceOk : Bool)
  /-- It is gone. -/
  | ended
  /-- `wait` fails, or is for another child. -/
  | failed

/-- What is done with the child. -/
inductive Act
  | cont (sig : Nat)
  | trace
  | kill
  deriving DecidableEq

/-- How it ends. -/
inductive End
  | returned (status : Int)
  /-- Waiting for more. -/
  | waiting
  | threw
  | aborted
  | undef
  deriving DecidableEq

/-- The signal the child is continued with. pstack.cc:128 -/
def contSig (sig : Nat) : Nat := if sig = sigStop ∨ sig = sigTrap then 0 else sig

/-- The loop of the parent. `traces` tells whether the stacks can be shown. pstack.cc:96-147 -/
def parentLoop (traces : Bool) : List Wait → List Act × End
  | [] => ([], .waiting)
  | .failed :: _ => ([], .returned 0)
  | .ended :: _ => ([], .returned 0)
  | .stopped sig status ok :: rest =>
      match sigBit sig with
      | none => ([], .undef)
      | some b =>
          if b &&& handled (masks status) = 0 then
            if traces = false then ([], .threw)
            else if ok then
              let r := parentLoop traces rest
              (.trace :: .kill :: r.1, r.2)
            else ([.trace, .kill], .aborted)
          else if ok then
            let r := parentLoop traces rest
            (.cont (contSig sig) :: r.1, r.2)
          else ([.cont (contSig sig)], .aborted)

end Pstack.Child
