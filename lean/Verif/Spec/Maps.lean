import Verif.Model.Maps
/-
What the kernel writes in /proc/<pid>/maps and smaps (proc(5)).
-/
namespace Pstack.Spec
open Pstack.Maps

/-- A digit. -/
def digitChar (d : Nat) : Char := if d < 10 then Char.ofNat (48 + d) else Char.ofNat (87 + d)

/-- A number in some base. -/
def digits (base : Nat) (n : Nat) : Text := if h : n < base ∨ base < 2 then [digitChar n] else digits base (n / base) ++ [digitChar (n % base)]
termination_by n
decreasing_by
  have h1 : 2 ≤ base := by omega
  have h2 : base ≤ n := by omega
  exact Nat.div_lt_self (by omega) (by omega)

/-- With zeros in front, to so many digits. -/
def padTo (w : Nat) (l : Text) : Text := List.replicate (w - l.length) '0' ++ l

def hexText (w n : Nat) : Text := padTo w (digits 16 n)

/-- A mapping of a process. -/
structure Mapping where
  start : Nat
  stop : Nat
  read : Bool
  write : Bool
  exec : Bool
  shared : Bool
  offset : Nat
  major : Nat
  minor : Nat
  inode : Nat
  /-- How many blanks there are before the path. -/
  blanks : Nat
  path : Option Text
  /-- In smaps: the lines before the one with the flags. -/
  attrs : List Text
  flags : Option (List Text)

structure Mapping.Valid (m : Mapping) : Prop where
  start : m.start < 2 ^ 64
  stop : m.stop < 2 ^ 64
  offset : m.offset < 2 ^ 64
  major : m.major < 2 ^ 31
  minor : m.minor < 2 ^ 31
  /-- A path is not empty, does not begin with a blank, and has no newlines (the kernel writes `\012`). -/
  path : ∀ p, m.path = some p → p ≠ [] ∧ p.head? ≠ some ' ' ∧ '\n' ∉ p
  attrs : ∀ l ∈ m.attrs, '\n' ∉ l ∧ (∃ c, l.head? = some c ∧ 'A' ≤ c ∧ c ≤ 'Z') ∧ l.takeWhile (· ≠ ':') ≠ "VmFlags".toList
  flags : ∀ l, m.flags = some l → ∀ f ∈ l, f.length = 2 ∧ '\n' ∉ f ∧ ' ' ∉ f

def permText (m : Mapping) : Text :=
  [if m.read then 'r' else '-', if m.write then 'w' else '-', if m.exec then 'x' else '-', if m.shared then 's' else 'p']

/-- What stands at the end of its line. -/
def Mapping.pathText (m : Mapping) : Text :=
  match m.path with
  | none => []
  | some p => List.replicate m.blanks ' ' ++ p

/-- The line of a mapping. -/
def Mapping.line (m : Mapping) : Text :=
  hexText 8 m.start ++ '-' :: hexText 8 m.stop ++ ' ' :: permText m ++ ' ' :: hexText 8 m.offset ++ ' ' :: hexText 2 m.major ++ ':' :: hexText 2 m.minor ++ ' ' :: digits 10 m.inode ++ ' ' :: m.pathText

/-- The line of its flags. -/
def flagLine (l : List Text) : Text := "VmFlags: ".toList ++ l.flatMap (· ++ [' '])

def Mapping.flagLines (m : Mapping) : List Text :=
  match m.flags with
  | none => []
  | some l => [flagLine l]

/-- All lines for it. -/
def Mapping.lines (m : Mapping) : List Text := m.line :: m.attrs ++ m.flagLines

/-- The file. -/
def mapsText (l : List Mapping) : Text := (l.flatMap Mapping.lines).flatMap (· ++ ['\n'])

/-- The permissions of a mapping. -/
def Mapping.perms (m : Mapping) : Perm → Bool
  | .read => m.read
  | .write => m.write
  | .exec => m.exec
  | .priv => !m.shared
  | .shared => m.shared

/-- A decimal number, read as if it were hexadecimal. -/
def misread (n : Nat) : Nat := if h : n < 10 then n else 16 * misread (n / 10) + n % 10
termination_by n
decreasing_by exact Nat.div_lt_self (by omega) (by omega)

end Pstack.Spec
