import Verif.Basic
/-
Model of the parser of /proc/<pid>/maps and smaps: live.cc. Text is a list of characters (bytes); a stream is what is left of it.
-/
namespace Pstack.Maps

abbrev Text := List Char

/-- `AddressRange::Permission`. libpstack/proc.h:212 -/
inductive Perm
  | read | write | exec | priv | shared
  deriving DecidableEq, Repr

/-- `AddressRange` with its `DevNode`. The sets of permissions and flags are given by their members; a flag is named by its two letters. libpstack/proc.h:181-215 -/
structure Range where
  start : BitVec 64
  stop : BitVec 64
  fileEnd : BitVec 64
  offset : BitVec 64
  major : BitVec 32
  minor : BitVec 32
  inode : BitVec 64
  path : Text
  permissions : Perm → Bool
  vmflags : Text → Bool

/-- `nextTok`: the token, and what is left. live.cc:237-250 -/
def nextTok (total : Text) (sep : Char) : Text × Text :=
  let rest := total.dropWhile (· = ' ')
  if rest = [] then (total, [])
  else if sep ∈ rest then (total.takeWhile (· = ' ') ++ rest.takeWhile (· ≠ sep), (rest.dropWhile (· ≠ sep)).tail)
  else (total, [])

/-- The loop of `hex2int`. live.cc:256-267 -/
def hexLoop (val : BitVec 64) : Text → Res (BitVec 64)
  | [] => .ok val
  | c :: l =>
      if '0' ≤ c ∧ c ≤ '9' then hexLoop (val * 16 + BitVec.ofNat 64 (c.toNat - 48)) l
      else if 'a' ≤ c ∧ c ≤ 'f' then hexLoop (val * 16 + BitVec.ofNat 64 (c.toNat - 97 + 10)) l
      else if 'A' ≤ c ∧ c ≤ 'F' then hexLoop (val * 16 + BitVec.ofNat 64 (c.toNat - 65 + 10)) l
      else .exc

/-- `hex2int`. live.cc:252-269 -/
def hex2int (l : Text) : Res (BitVec 64) := hexLoop 0 l

/-- `flagmap`, of permissions. live.cc:303-309 -/
def permOf (c : Char) : Option Perm :=
  if c = 'r' then some .read else if c = 'w' then some .write else if c = 'x' then some .exec else if c = 'p' then some .priv else if c = 's' then some .shared else none

/-- The loop over the permissions. `at` throws for other letters. live.cc:310-312 -/
def permLoop (set : Perm → Bool) : Text → Res (Perm → Bool)
  | [] => .ok set
  | c :: l =>
      if c = '-' then permLoop set l
      else match permOf c with
        | none => .exc
        | some p => permLoop (fun q => q = p || set q) l

/-- The names of the flags. live.cc:367-403 -/
def flagNames : List Text :=
  ["rd", "wr", "ex", "sh", "mr", "mw", "me", "ms", "gd", "pf", "dw", "lo", "io", "sr", "rr", "dc", "de", "ac", "nr", "ht", "sf", "ar", "wf", "dd", "sd", "mm", "hg", "nh", "mg", "bt", "mt", "um", "uw", "ss", "sl"].map String.toList

/-- The loop over the flags. Every turn takes something from the text, or is the last. live.cc:338-345 -/
def flagLoop (set : Text → Bool) : Nat → Text → Text → Bool
  | 0, _ => set
  | fuel + 1, view =>
      let (tok, view) := nextTok view ' '
      if tok = [] then set
      else flagLoop (fun t => (t = tok && flagNames.contains tok) || set t) fuel view

/-- `isupper`. -/
def isUpper (c : Char) : Bool := 'A' ≤ c && c ≤ 'Z'

/-- One line of attributes. live.cc:333-347 -/
def attrLine (set : Text → Bool) (buf : Text) : Text → Bool :=
  let (key, view) := nextTok buf ':'
  if key = "VmFlags".toList then flagLoop set (view.length + 1) view else set

/-- The lines of attributes. The streams' `getline` and `peek` are about lines and their first characters. live.cc:332-348 -/
def attrLines (set : Text → Bool) : List Text → (Text → Bool) × List Text
  | [] => (set, [])
  | buf :: rest =>
      if (buf.head?.any isUpper) then attrLines (attrLine set buf) rest else (set, buf :: rest)

/-- The first line of a range. `fileEnd` is left as it was made: 0. live.cc:293-328 -/
def header (buf : Text) : Res Range := do
  let (t, r) := nextTok buf '-'
  let start ← hex2int t
  let (t, r) := nextTok r ' '
  let stop ← hex2int t
  let (t, r) := nextTok r ' '
  let perms ← permLoop (fun _ => false) t
  let (t, r) := nextTok r ' '
  let offset ← hex2int t
  let (t, r) := nextTok r ':'
  let major ← hex2int t
  let (t, r) := nextTok r ' '
  let minor ← hex2int t
  let (t, r) := nextTok r ' '
  let inode ← hex2int t
  let path := if r.dropWhile (· = ' ') = [] then "<anon>".toList else r.dropWhile (· = ' ')
  .ok ⟨start, stop, 0, offset, major.setWidth 32, minor.setWidth 32, inode, path, perms, fun _ => false⟩

theorem attrLines_length (set : Text → Bool) (l : List Text) : (attrLines set l).2.length ≤ l.length := by
  induction l generalizing set with
  | nil => exact Nat.le_refl _
  | cons a l ih =>
    unfold attrLines
    split
    · have := ih (attrLine set a); rw [List.length_cons]; omega
    · exact Nat.le_refl _

/-- `procAddressSpace`, of the lines of the stream. live.cc:279-351 -/
def addressSpace : List Text → Res (List Range)
  | [] => .ok []
  | buf :: rest => do
      let r ← header buf
      let l ← addressSpace (attrLines r.vmflags rest).2
      .ok ({ r with vmflags := (attrLines r.vmflags rest).1 } :: l)
termination_by l => l.length
decreasing_by
  have := attrLines_length r.vmflags rest
  simp only [List.length_cons]
  omega

/-- `getline` until the end of the stream: a last line without an end is one, unless it is empty. -/
def linesOf : Text → List Text
  | [] => []
  | '\n' :: l => [] :: linesOf l
  | c :: l =>
      match linesOf l with
      | [] => [[c]]
      | x :: xs => (c :: x) :: xs

/-- `procAddressSpace`, of a stream. live.cc:279-351 -/
def procAddressSpace (input : Text) : Res (List Range) := addressSpace (linesOf input)

end Pstack.Maps
