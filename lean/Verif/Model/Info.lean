import Verif.Model.Die
/-
Model of the units of .debug_info taken together, of the attributes of an entry and of the conversions of their values.
dwarf_info.cc:59-125, dwarf_die.cc:114-149, 407-466, 549-626, dwarf_unit.cc:18-83, libpstack/dwarf.h:601-780, 848-877.
There is no alternate file (.gnu_debugaltlink) in the model: `getAltDwarf()` returns null.
-/
namespace Pstack.Die
open Pstack.Dwarf Pstack.Reader

/-- The sections `Info` reads. A section that is not there is one without contents, except where the code asks for it (`none`).
dwarf_info.cc:21-31. -/
structure Sections where
  info : List Byte
  abbr : List Byte
  str : List Byte
  lineStr : List Byte
  ranges : List Byte
  rnglists : List Byte
  strOffsets : Option (List Byte)
  addr : Option (List Byte)

/-- What `Info` and its units remember: the offsets at which `Info::units` has a unit, the decoded entries of each unit (by its offset) and
the ranges of entries (`rangesForOffset`, by the offset of the unit and that of the entry). The contents of a unit's header and its
abbreviations are functions of the sections and looked up there again. libpstack/dwarf.h:411-432, 722. -/
structure IState where
  loaded : List Nat
  st : Nat → State
  ranges : Nat → Nat → Option (List (Nat × Nat))

/-- Nothing looked at. -/
def IState.empty : IState := ⟨[], fun _ => State.empty, fun _ _ => none⟩

def IState.setSt (s : IState) (off : Nat) (t : State) : IState := ⟨s.loaded, fun o => if o = off then t else s.st o, s.ranges⟩

/-- A `DIE` that is not null. libpstack/dwarf.h:181-197. -/
structure DIE where
  unit : Unit
  h : Handle

/-- `Info::getUnit(offset)`. dwarf_info.cc:59-70. -/
def getUnit (d : Sections) (off : Nat) (s : IState) : Res (Unit × IState) := do
  let u ← openUnit d.info d.abbr off
  .ok (u, ⟨off :: s.loaded, s.st, s.ranges⟩)

/-- `u->offsetToDIE(DIE(), offset)`. dwarf_unit.cc:152-157. -/
def inUnit (u : Unit) (off : Nat) (s : IState) : Res (Option DIE × IState) := do
  let (h, t) ← offsetToDIE u none off (s.st u.offset)
  .ok (h.map (⟨u, ·⟩), s.setSt u.offset t)

/-- `u->root()`. -/
def rootDIE (u : Unit) (s : IState) : Res (Option DIE × IState) := inUnit u u.rootOffset s

/-- The iterator over units, one step: `++it`. libpstack/dwarf.h:848-854. -/
def nextUnit (d : Sections) (u : Unit) (s : IState) : Res (Option Unit × IState) :=
  if u.stop = d.info.length then .ok (none, s)
  else do
    let (v, s) ← getUnit d u.stop s
    .ok (some v, s)

/-- `for (auto u : getUnits()) ...`: the units an iterator runs over, from a unit on. -/
def unitsFrom (d : Sections) : Nat → Option Unit → IState → Res (List Unit × IState)
  | 0, _, _ => .ub
  | _ + 1, none, s => .ok ([], s)
  | fuel + 1, some u, s => do
      let (v, s) ← nextUnit d u s
      let (l, s) ← unitsFrom d fuel v s
      .ok (u :: l, s)

/-- `for (auto u : getUnits())`, `debugInfo` being there. libpstack/dwarf.h:867-870. -/
def allUnits (d : Sections) (fuel : Nat) (s : IState) : Res (List Unit × IState) := do
  let (u, s) ← getUnit d 0 s
  unitsFrom d fuel (some u) s

/-- `it = units.upper_bound(offset); if (it != begin()) uOffset = (--it)->first; else uOffset = 0`. dwarf_info.cc:84-100. -/
def searchStart (loaded : List Nat) (offset : Nat) : Nat := (loaded.filter (· ≤ offset)).foldl max 0

/-- The loop of `Info::offsetToDIE`. dwarf_info.cc:103-124. -/
def searchUnits (d : Sections) (offset : Nat) : Nat → Unit → IState → Res (DIE × IState)
  | 0, _, _ => .ub
  | fuel + 1, u, s =>
      if u.stop > offset then
        if u.offset ≤ offset then do
          let (e, s) ← inUnit u offset s
          match e with
          | some e => .ok (e, s)
          | none => .exc
        else .exc
      else do
        let (v, s) ← nextUnit d u s
        match v with
        | some v => searchUnits d offset fuel v s
        | none => .exc

/-- `Info::offsetToDIE`. Units do not overlap and have at least one byte, so there are no more than the section has bytes.
dwarf_info.cc:72-125. -/
def infoOffsetToDIE (d : Sections) (offset : Nat) (s : IState) : Res (DIE × IState) := do
  let (u, s) ← getUnit d (searchStart s.loaded offset) s
  searchUnits d offset (d.info.length + 1) u s

/-! ### Attributes -/

/-- An `Attribute` that is valid: an entry, and which of its attributes. libpstack/dwarf.h:744-780. -/
structure Attr where
  die : DIE
  idx : Nat

/-- `die.raw`. -/
def rawOf (s : IState) (x : DIE) : Res Raw :=
  match (s.st x.unit.offset).get x.h with
  | none => .ub
  | some r => .ok r

/-- `form()`. libpstack/dwarf.h:758. -/
def Attr.form (s : IState) (a : Attr) : Res Nat := do
  let r ← rawOf s a.die
  match r.type.forms[a.idx]? with
  | some f => .ok f.form
  | none => .ub

/-- `value()`. dwarf_die.cc:676-678. -/
def Attr.value (s : IState) (a : Attr) : Res Value := do
  let r ← rawOf s a.die
  match r.values[a.idx]? with
  | some v => .ok v
  | none => .exc

/-- `value().addr`, `value().udata` or `value().sdata`. -/
def Attr.word (s : IState) (a : Attr) : Res (BitVec 64) := do
  let v ← a.value s
  match v with
  | .word w => .ok w
  | _ => .ub

/-- `name()`. dwarf_die.cc:407-416. -/
def Attr.name (s : IState) (a : Attr) : Res Nat := do
  let r ← rawOf s a.die
  match r.type.names.find? (fun e => e.2 = a.idx) with
  | some e => .ok e.1
  | none => .ok 0

/-- The order of `std::pair`. -/
def pairLe (a b : Nat × Nat) : Bool := a.1 < b.1 || (a.1 == b.1 && a.2 ≤ b.2)

/-- `sort`, `lower_bound`, and the test whether the attribute was found. That the list stays sorted is not recorded: it is looked up here and by `name()`, where
the order does not matter, and otherwise seen only by running over all attributes, which is not in the model. dwarf_die.cc:117-131. -/
def findName (names : List (Nat × Nat)) (name : Nat) : Option Nat :=
  let l := names.mergeSort pairLe
  match l[Search.lowerBound (fun e => decide (e.1 < name)) l]? with
  | some e => if e.1 = name then some e.2 else none
  | none => none

/-- `attribute(name)`, if the entry has it. dwarf_die.cc:114-131. -/
def ownAttr (x : DIE) (name : Nat) (s : IState) : Res (Option Attr) := do
  let r ← rawOf s x
  match findName r.type.names name with
  | none => .ok none
  | some i => if i < r.type.forms.length then .ok (some ⟨x, i⟩) else .exc

/-- The last part of `operator DIE`: this unit first, then others. dwarf_die.cc:617-625. -/
def gotoDIE (d : Sections) (u : Unit) (off : Nat) (s : IState) : Res (Option DIE × IState) :=
  if u.offset ≤ off ∧ u.stop > off then do
    let (e, s) ← inUnit u off s
    match e with
    | some e => .ok (some e, s)
    | none => do
        let (e, s) ← infoOffsetToDIE d off s
        .ok (some e, s)
  else do
    let (e, s) ← infoOffsetToDIE d off s
    .ok (some e, s)

/-- `operator DIE`. A null attribute gives a null `DIE`. dwarf_die.cc:588-626. -/
def toDIE (d : Sections) (a : Option Attr) (s : IState) : Res (Option DIE × IState) :=
  match a with
  | none => .ok (none, s)
  | some a => do
      let f ← a.form s
      match f with
      | 0x10 => do
          let w ← a.word s
          gotoDIE d a.die.unit w.toNat s
      | 0x11 | 0x12 | 0x13 | 0x14 | 0x15 => do
          let w ← a.word s
          gotoDIE d a.die.unit ((w + BitVec.ofNat 64 a.die.unit.offset).toNat) s
      | _ => .exc

/-- `ao.raw != raw`. -/
def sameRaw (x y : DIE) : Bool := x.unit.offset == y.unit.offset && x.h == y.h

/-- `DIE::attribute(name, local)`. `fuel` is the depth of the recursion. dwarf_die.cc:114-149. -/
def getAttr (d : Sections) : Nat → DIE → Nat → Bool → IState → Res (Option Attr × IState)
  | 0, _, _, _, _ => .ub
  | fuel + 1, x, name, isLocal, s => do
      let own ← ownAttr x name s
      match own with
      | some a => .ok (some a, s)
      | none =>
          if isLocal = true ∨ name = 0x3c ∨ name = 0x31 ∨ name = 0x47 then .ok (none, s)
          else do
            let origin ← ownAttr x 0x31 s
            let (ao, s) ← toDIE d origin s
            match other x ao with
            | some ao => getAttr d fuel ao name false s
            | none => do
                let spec ← ownAttr x 0x47 s
                let (ao, s) ← toDIE d spec s
                match other x ao with
                | some ao => getAttr d fuel ao name false s
                | none => .ok (none, s)
where
  /-- `ao && ao.raw != raw` -/
  other (x : DIE) : Option DIE → Option DIE
    | some y => if sameRaw x y then none else some y
    | none => none

/-! ### Conversions -/

/-- `operator intmax_t`. dwarf_die.cc:418-436. -/
def toInt (a : Option Attr) (s : IState) : Res (BitVec 64) :=
  match a with
  | none => .ok 0
  | some a => do
      let f ← a.form s
      match f with
      | 0x0b | 0x05 | 0x06 | 0x07 | 0x0d | 0x0f | 0x21 | 0x17 => a.word s
      | _ => .exc

/-- The base of a table of a unit: `root().attribute(name)`, if it is there. -/
def rootAttr (d : Sections) (fuel : Nat) (u : Unit) (name : Nat) (s : IState) : Res (Option Attr × IState) := do
  let (r, s) ← rootDIE u s
  match r with
  | none => .ub
  | some r => getAttr d fuel r name false s

/-- The size of addresses in a table of addresses: two bytes before the table, if there can be a header. dwarf_unit.cc:53-58. -/
def addrSizeAt (sec : List Byte) (base : BitVec 64) : Res (BitVec 64) :=
  if (2#64).slt base then do
    let (b, _) ← getu8 sec ((base - 2).toNat)
    .ok (b.setWidth 64)
  else .ok 8

/-- `Unit::addrx(idx)`. dwarf_unit.cc:48-60. -/
def addrx (d : Sections) (fuel : Nat) (u : Unit) (idx : BitVec 64) (s : IState) : Res (BitVec 64 × IState) :=
  match d.addr with
  | none => .exc
  | some sec => do
      let (a, s) ← rootAttr d fuel u 0x73 s
      let base ← toInt a s
      let addrlen ← addrSizeAt sec base
      let (w, _) ← getuint sec 8 ((base + idx * addrlen).toNat)
      .ok (w, s)

/-- `operator uintmax_t`, but for DW_FORM_rnglistx. dwarf_die.cc:438-466. -/
def toUint (d : Sections) (fuel : Nat) (a : Option Attr) (s : IState) : Res (BitVec 64 × IState) :=
  match a with
  | none => .ok (0, s)
  | some a => do
      let f ← a.form s
      match f with
      | 0x0b | 0x05 | 0x06 | 0x07 | 0x0f | 0x21 | 0x01 | 0x17 => do
          let w ← a.word s
          .ok (w, s)
      | 0x1b | 0x29 | 0x2a | 0x2b | 0x2c => do
          let w ← a.word s
          addrx d fuel a.die.unit w s
      | _ => .exc

/-- `Unit::rnglistx(slot)`. The base is converted by `operator uintmax_t`, with a form that is not DW_FORM_rnglistx (that would not
terminate). dwarf_unit.cc:62-83. -/
def rnglistx (d : Sections) (fuel : Nat) (u : Unit) (slot : BitVec 64) (s : IState) : Res (BitVec 64 × IState) := do
  let (a, s) ← rootAttr d fuel u 0x74 s
  let (base, s) ← toUint d fuel a s
  let ((_, dwarflen), _) ← getlength d.rnglists 0
  let (w, _) ← getuint d.rnglists dwarflen ((base + slot * BitVec.ofNat 64 dwarflen).toNat)
  .ok (base + w, s)

/-- `operator uintmax_t`, all of it. -/
def toNum (d : Sections) (fuel : Nat) (a : Option Attr) (s : IState) : Res (BitVec 64 × IState) :=
  match a with
  | none => .ok (0, s)
  | some a' => do
      let f ← a'.form s
      if f = 0x23 then do
        let w ← a'.word s
        rnglistx d fuel a'.die.unit w s
      else toUint d fuel a s

/-- Where the offsets of strings of a unit are, and their size. dwarf_unit.cc:22-42. -/
def strBase (d : Sections) (fuel : Nat) (u : Unit) (sec : List Byte) (a : Option Attr) (s : IState) : Res (BitVec 64 × Nat × IState) :=
  match a with
  | some a => do
      let (w, s) ← toNum d fuel (some a) s
      .ok (w, u.dwarfLen, s)
  | none =>
      if u.version ≥ 5 then do
        let ((_, entrysize), p) ← getlength sec 0
        let (_, p) ← getu16 sec p
        let (_, p) ← getu16 sec p
        .ok (BitVec.ofNat 64 p, entrysize, s)
      else .ok (0, 4, s)

/-- `Unit::strx(idx)`. dwarf_unit.cc:18-46. -/
def strx (d : Sections) (fuel : Nat) (u : Unit) (idx : BitVec 64) (s : IState) : Res (List Byte × IState) :=
  match d.strOffsets with
  | none => .exc
  | some sec => do
      let (a, s) ← rootAttr d fuel u 0x72 s
      let (base, entrysize, s) ← strBase d fuel u sec a s
      let (offset, _) ← getuint sec entrysize ((base + BitVec.ofNat 64 entrysize * idx).toNat)
      let str ← memString d.str offset.toNat
      .ok (str, s)

/-- "(alt string table unavailable)" -/
def noAltString : List Byte :=
  [0x28, 0x61, 0x6c, 0x74, 0x20, 0x73, 0x74, 0x72, 0x69, 0x6e, 0x67, 0x20, 0x74, 0x61, 0x62, 0x6c, 0x65, 0x20, 0x75, 0x6e, 0x61, 0x76, 0x61, 0x69, 0x6c, 0x61, 0x62, 0x6c, 0x65, 0x29]

/-- `operator std::string`. Without an alternate file a string in it is replaced by a message. dwarf_die.cc:549-586. -/
def toStr (d : Sections) (fuel : Nat) (a : Option Attr) (s : IState) : Res (List Byte × IState) :=
  match a with
  | none => .ok ([], s)
  | some a => do
      let f ← a.form s
      match f with
      | 0x1f21 => .ok (noAltString, s)
      | 0x0e => do
          let w ← a.word s
          let str ← memString d.str w.toNat
          .ok (str, s)
      | 0x1f => do
          let w ← a.word s
          let str ← memString d.lineStr w.toNat
          .ok (str, s)
      | 0x08 => do
          let w ← a.word s
          let str ← memString d.info w.toNat
          .ok (str, s)
      | 0x25 | 0x26 | 0x27 | 0x28 | 0x1a | 0x1f02 => do
          let w ← a.word s
          strx d fuel a.die.unit w s
      | _ => .exc

end Pstack.Die
