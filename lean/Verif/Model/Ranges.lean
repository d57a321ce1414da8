import Verif.Model.Info
/-
Model of the address ranges of entries. dwarf_die.cc:52-112, 468-547, 726-733, dwarf_unit.cc:233-246.
-/
namespace Pstack.Die
open Pstack.Dwarf Pstack.Reader

/-- The loop over .debug_ranges. Every round takes 16 bytes, so `sec.length + 1` rounds are enough. dwarf_die.cc:475-484. -/
def ranges4 (sec : List Byte) : Nat → BitVec 64 → Nat → List (Nat × Nat) → Res (List (Nat × Nat))
  | 0, _, _, _ => .exc
  | fuel + 1, base, off, acc => do
      let (start, off) ← getuint sec 8 off
      let (stop, off) ← getuint sec 8 off
      if start = 0 ∧ stop = 0 then .ok acc
      else if start = BitVec.allOnes 64 then ranges4 sec fuel stop off acc
      else ranges4 sec fuel base off (acc ++ [((start + base).toNat, (stop + base).toNat)])

/-- The loop over .debug_rnglists. Every round takes a byte. dwarf_die.cc:493-545. -/
def ranges5 (d : Sections) (fuel : Nat) (u : Unit) : Nat → BitVec 64 → Nat → List (Nat × Nat) → IState → Res (List (Nat × Nat) × IState)
  | 0, _, _, _, _ => .exc
  | rounds + 1, base, off, acc, s => do
      let (kind, off) ← getu8 d.rnglists off
      match kind.toNat with
      | 0 => .ok (acc, s)
      | 1 => do
          let (i, off) ← getuleb128 d.rnglists off
          let (base, s) ← addrx d fuel u i s
          ranges5 d fuel u rounds base off acc s
      | 3 => do
          let (i, off) ← getuleb128 d.rnglists off
          let (start, s) ← addrx d fuel u i s
          let (len, off) ← getuleb128 d.rnglists off
          ranges5 d fuel u rounds base off (acc ++ [(start.toNat, (start + len).toNat)]) s
      | 4 => do
          let (a, off) ← getuleb128 d.rnglists off
          let (b, off) ← getuleb128 d.rnglists off
          ranges5 d fuel u rounds base off (acc ++ [((a + base).toNat, (b + base).toNat)]) s
      | 5 => do
          let (base, off) ← getuint d.rnglists u.addrlen off
          ranges5 d fuel u rounds base off acc s
      | 6 => do
          let (a, off) ← getuint d.rnglists u.addrlen off
          let (b, off) ← getuint d.rnglists u.addrlen off
          ranges5 d fuel u rounds base off (acc ++ [(a.toNat, b.toNat)]) s
      | 7 => do
          let (a, off) ← getuint d.rnglists u.addrlen off
          let (len, off) ← getuleb128 d.rnglists off
          ranges5 d fuel u rounds base off (acc ++ [(a.toNat, (a + len).toNat)]) s
      | _ => .exc

/-- `Ranges::Ranges(die, base)`. dwarf_die.cc:468-547. -/
def readRanges (d : Sections) (fuel : Nat) (x : DIE) (base : BitVec 64) (s : IState) : Res (List (Nat × Nat) × IState) := do
  let (a, s) ← getAttr d fuel x 0x55 false s
  let (off, s) ← toNum d fuel a s
  if x.unit.version < 5 then do
    let l ← ranges4 d.ranges (d.ranges.length + 1) base off.toNat []
    .ok (l, s)
  else ranges5 d fuel x.unit (d.rnglists.length + 1) base off.toNat [] s

def IState.setRanges (s : IState) (uo o : Nat) (l : List (Nat × Nat)) : IState :=
  ⟨s.loaded, s.st, fun a b => if a = uo ∧ b = o then some l else s.ranges a b⟩

/-- `rangesForOffset = {}`, in `Unit::purge`. dwarf_unit.cc:252. -/
def IState.dropRanges (s : IState) (uo : Nat) : IState := ⟨s.loaded, s.st, fun a b => if a = uo then none else s.ranges a b⟩

/-- The value of an attribute that may not be there: `low.valid() ? uintmax_t(low) : 0`. -/
def numOr0 (d : Sections) (fuel : Nat) (a : Option Attr) (s : IState) : Res (BitVec 64 × IState) :=
  match a with
  | none => .ok (0, s)
  | some a => toNum d fuel (some a) s

/-- The base address `Unit::getRanges` uses. dwarf_unit.cc:235-240. -/
def rangesBase (d : Sections) (fuel : Nat) (u : Unit) (base : BitVec 64) (s : IState) : Res (BitVec 64 × IState) :=
  if base = 0 then do
    let (a, s) ← rootAttr d fuel u 0x11 s
    numOr0 d fuel a s
  else .ok (base, s)

/-- `Unit::getRanges(die, base)`. dwarf_unit.cc:233-246. -/
def unitRanges (d : Sections) (fuel : Nat) (x : DIE) (base : BitVec 64) (s : IState) : Res (List (Nat × Nat) × IState) := do
  let (base, s) ← rangesBase d fuel x.unit base s
  match s.ranges x.unit.offset x.h.off with
  | some l => .ok (l, s)
  | none => do
      let (l, s) ← readRanges d fuel x base s
      .ok (l, s.setRanges x.unit.offset x.h.off l)

/-- `DIE::getRanges()`: `none` if the entry has no ranges. dwarf_die.cc:726-733. -/
def dieRanges (d : Sections) (fuel : Nat) (x : DIE) (s : IState) : Res (Option (List (Nat × Nat)) × IState) := do
  let (r, s) ← getAttr d fuel x 0x55 false s
  match r with
  | none => .ok (none, s)
  | some _ => do
      let (low, s) ← getAttr d fuel x 0x11 false s
      let (base, s) ← numOr0 d fuel low s
      let (l, s) ← unitRanges d fuel x base s
      .ok (some l, s)

/-- `ContainsAddr`. libpstack/dwarf.h:162. -/
inductive Contains
  | yes
  | no
  | unknown
  deriving DecidableEq, Repr

/-- The form is that of an address. dwarf_die.cc:63-71, 76-84. -/
def isAddrForm (f : Nat) : Bool := f = 0x01 || f = 0x1b || f = 0x29 || f = 0x2a || f = 0x2b || f = 0x2c

/-- The form is that of a number. dwarf_die.cc:85-91. -/
def isLenForm (f : Nat) : Bool := f = 0x0b || f = 0x05 || f = 0x06 || f = 0x07 || f = 0x0f

/-- The end of the range of an entry that starts at `start`. dwarf_die.cc:76-94. -/
def highOf (d : Sections) (fuel : Nat) (start : BitVec 64) (high : Attr) (s : IState) : Res (BitVec 64 × IState) := do
  let fh ← high.form s
  if isAddrForm fh then toUint d fuel (some high) s
  else if isLenForm fh then do
    let (len, s) ← toUint d fuel (some high) s
    .ok (start + len, s)
  else .exc

/-- The case of an entry with a low and a high address. dwarf_die.cc:58-96. -/
def containsLowHigh (d : Sections) (fuel : Nat) (low high : Attr) (addr : BitVec 64) (s : IState) : Res (Contains × IState) := do
  let fl ← low.form s
  if isAddrForm fl then do
    let (start, s) ← toUint d fuel (some low) s
    let (stop, s) ← highOf d fuel start high s
    .ok (if start.toNat ≤ addr.toNat ∧ stop.toNat > addr.toNat then .yes else .no, s)
  else .exc

/-- The case of an entry with ranges, or without any of these. dwarf_die.cc:98-111. -/
def containsRanges (d : Sections) (fuel : Nat) (x : DIE) (low : Option Attr) (addr : BitVec 64) (s : IState) : Res (Contains × IState) := do
  let (r, s) ← getAttr d fuel x 0x55 false s
  match r with
  | none => .ok (.unknown, s)
  | some _ => do
      let (base, s) ← numOr0 d fuel low s
      let (l, s) ← unitRanges d fuel x base s
      .ok (if l.any (fun r => decide (r.1 ≤ addr.toNat ∧ addr.toNat ≤ r.2)) then .yes else .no, s)

/-- `DIE::containsAddress(addr)`. dwarf_die.cc:52-112. -/
def containsAddress (d : Sections) (fuel : Nat) (x : DIE) (addr : BitVec 64) (s : IState) : Res (Contains × IState) := do
  let (low, s) ← getAttr d fuel x 0x11 true s
  let (high, s) ← getAttr d fuel x 0x12 true s
  match low, high with
  | some low, some high => containsLowHigh d fuel low high addr s
  | low, _ => containsRanges d fuel x low addr s

end Pstack.Die
