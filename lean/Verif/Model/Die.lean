import Verif.Model.DwarfReader
import Verif.Model.Search
/-
Model of the debugging entries of a unit: abbreviations, the decoding of an entry, the cache of decoded entries and the walk over
the tree. dwarf_die.cc, dwarf_unit.cc, dwarf_info.cc:215-236, libpstack/dwarf.h.
-/
namespace Pstack.Die
open Pstack.Dwarf Pstack.Reader

/-- `FormEntry`: a form, and its value if the abbreviation carries it. libpstack/dwarf.h:113-117. -/
structure FormEntry where
  form : Nat
  value : BitVec 64
  deriving DecidableEq, Repr

/-- `Abbreviation`. `nextSib` is `nextSibIdx` (-1: `none`); `names` is `attrName2Idx` as read; `sorted` is left out, `attribute` sorts
a copy instead. libpstack/dwarf.h:127-137. -/
structure Abbrev where
  tag : Nat
  hasChildren : Bool
  forms : List FormEntry
  names : List (Nat × Nat)
  nextSib : Option Nat
  deriving DecidableEq, Repr

/-- The loop over the attributes of an abbreviation. Enumerations are 32 bits wide. Every attribute takes two bytes, so
`d.length + 1` rounds are enough. dwarf_info.cc:223-233. -/
def attrLoop (d : List Byte) : Nat → Nat → Abbrev → Parse Abbrev
  | 0, _, _ => throwExc
  | fuel + 1, i, a => do
      let name ← getuleb128 d
      let form ← getuleb128 d
      let name := (name.setWidth 32).toNat
      let form := (form.setWidth 32).toNat
      if name = 0 ∧ form = 0 then pure a
      else do
        let value ← if form = 0x21 then getsleb128 d else pure 0#64
        attrLoop d fuel (i + 1)
          ⟨a.tag, a.hasChildren, a.forms ++ [⟨form, value⟩], a.names ++ [(name, i)], if name = 1 then some i else a.nextSib⟩

/-- `Abbreviation::Abbreviation`. dwarf_info.cc:215-236. -/
def readAbbrev (d : List Byte) : Parse Abbrev := do
  let tag ← getuleb128 d
  let flag ← getu8 d
  attrLoop d (d.length + 1) 0 ⟨(tag.setWidth 32).toNat, flag.toNat = 1, [], [], none⟩

/-- `Unit::load()`: the abbreviations in the order read. `emplace` keeps the first of several with the same code; `findAbbreviation`
below finds that. dwarf_unit.cc:6-16. -/
def loadLoop (d : List Byte) : Nat → List (Nat × Abbrev) → Parse (List (Nat × Abbrev))
  | 0, _ => throwExc
  | fuel + 1, l => do
      let code ← getuleb128 d
      if code = 0 then pure l
      else do
        let a ← readAbbrev d
        loadLoop d fuel (l ++ [(code.toNat, a)])

/-- `Unit::findAbbreviation`. dwarf_unit.cc:226-231. -/
def findAbbrev (l : List (Nat × Abbrev)) (code : Nat) : Option Abbrev := (l.find? (fun e => e.1 = code)).map (·.2)

/-- A unit, its header read: `Unit`. `info` is the contents of .debug_info. libpstack/dwarf.h:401-456. -/
structure Unit where
  info : List Byte
  offset : Nat
  stop : Nat
  version : Nat
  dwarfLen : Nat
  addrlen : Nat
  rootOffset : Nat
  abbrevs : List (Nat × Abbrev)

/-- The fields of the header of a unit. libpstack/dwarf.h:436-447. -/
structure Header where
  offset : Nat
  stop : Nat
  version : Nat
  dwarfLen : Nat
  addrlen : Nat
  abbrevOffset : Nat
  rootOffset : Nat

/-- The part of the header that depends on the version: the address size and the offset of the abbreviations. An identifier is skipped.
dwarf_unit.cc:97-119. -/
def readHeaderRest (d : List Byte) (version dwarfLen : Nat) : Parse (Nat × Nat) :=
  if version ≥ 5 then do
    let unitType ← getu8 d
    match unitType.toNat with
    | 1 | 2 | 3 => do
        let addrlen ← getu8 d
        let abbrevOffset ← getuint d dwarfLen
        pure (addrlen.toNat, abbrevOffset.toNat)
    | 4 | 5 | 6 => do
        let addrlen ← getu8 d
        let abbrevOffset ← getuint d dwarfLen
        let _ ← getBytes d 8
        pure (addrlen.toNat, abbrevOffset.toNat)
    | _ => throwExc
  else do
    let abbrevOffset ← getuint d (if version ≤ 2 then 4 else dwarfLen)
    let addrlen ← getu8 d
    pure (addrlen.toNat, abbrevOffset.toNat)

/-- `Unit::Unit`. `length` is 32 bits wide; `end` is computed from it. dwarf_unit.cc:85-122. -/
def readHeader (d : List Byte) : Parse Header := do
  let offset ← getOffset
  let (length, dwarfLen) ← getlength d
  let p ← getOffset
  let version ← getu16 d
  let dwarfLen := if version.toNat ≤ 2 then 8 else dwarfLen
  let (addrlen, abbrevOffset) ← readHeaderRest d version.toNat dwarfLen
  let rootOffset ← getOffset
  pure ⟨offset, (p + length % 2 ^ 32) % W64, version.toNat, dwarfLen, addrlen, abbrevOffset, rootOffset⟩

/-- A unit at an offset of .debug_info, and its abbreviations from .debug_abbrev: `Info::getUnit` and `Unit::load`. The code reads the
abbreviations at the first use of an entry and not here; with a table that cannot be read that makes a difference, otherwise none.
dwarf_info.cc:59-70, dwarf_unit.cc:6-16, 153-154. -/
def openUnit (info abbr : List Byte) (off : Nat) : Res Unit := do
  let (h, _) ← readHeader info off
  let (abbrevs, _) ← loadLoop abbr (abbr.length + 1) [] h.abbrevOffset
  .ok ⟨info, h.offset, h.stop, h.version, h.dwarfLen, h.addrlen, h.rootOffset, abbrevs⟩

/-- `DIE::Attribute::Value`, a union: a 64-bit word, a block, or a flag. libpstack/dwarf.h:746-754. -/
inductive Value
  | word (w : BitVec 64)
  | block (length offset : Nat)
  | flag (b : Bool)
  deriving DecidableEq, Repr

/-- `block->length = ...; block->offset = r.getOffset(); r.skip(block->length)`. dwarf_die.cc:277-303. -/
def readBlock (len : Nat) : Parse Value := do
  let off ← getOffset
  skip len
  pure (.block len off)

/-- `DIE::Attribute::Value::Value`. dwarf_die.cc:182-325. -/
def readValue (d : List Byte) (u : Unit) (f : FormEntry) : Parse Value :=
  match f.form with
  | 0x1f21 => do pure (.word (← getint d u.dwarfLen))
  | 0x0e => do pure (.word (← getint d (if u.version ≤ 2 then 4 else u.dwarfLen)))
  | 0x1f => do pure (.word (← getint d (if u.version ≤ 2 then 4 else u.dwarfLen)))
  | 0x1f20 => do pure (.word (← getuint d u.dwarfLen))
  | 0x01 => do pure (.word (← getuint d u.addrlen))
  | 0x0b => do pure (.word ((← getu8 d).setWidth 64))
  | 0x05 => do pure (.word ((← getu16 d).setWidth 64))
  | 0x06 => do pure (.word ((← getu32 d).setWidth 64))
  | 0x07 => do pure (.word (← getuint d 8))
  | 0x0d => do pure (.word (← getsleb128 d))
  | 0x0f => do pure (.word (← getuleb128 d))
  | 0x1f02 => do pure (.word (← getuleb128 d))
  | 0x1f01 => do pure (.word (← getuleb128 d))
  | 0x1a => do pure (.word (← getuleb128 d))
  | 0x22 => do pure (.word (← getuleb128 d))
  | 0x23 => do pure (.word (← getuleb128 d))
  | 0x1b => do pure (.word (← getuleb128 d))
  | 0x15 => do pure (.word (← getuleb128 d))
  | 0x25 => do pure (.word ((← getu8 d).setWidth 64))
  | 0x29 => do pure (.word ((← getu8 d).setWidth 64))
  | 0x11 => do pure (.word ((← getu8 d).setWidth 64))
  | 0x26 => do pure (.word ((← getu16 d).setWidth 64))
  | 0x2a => do pure (.word ((← getu16 d).setWidth 64))
  | 0x12 => do pure (.word ((← getu16 d).setWidth 64))
  | 0x2b => do pure (.word (← getuint d 3))
  | 0x27 => do pure (.word (← getuint d 3))
  | 0x28 => do pure (.word ((← getu32 d).setWidth 64))
  | 0x2c => do pure (.word ((← getu32 d).setWidth 64))
  | 0x13 => do pure (.word ((← getu32 d).setWidth 64))
  | 0x10 => do pure (.word (← getuint d u.dwarfLen))
  | 0x14 => do pure (.word (← getuint d 8))
  | 0x08 => do
      let off ← getOffset
      let _ ← getstring d
      pure (.word (BitVec.ofNat 64 off))
  | 0x0a => do readBlock (← getu8 d).toNat
  | 0x03 => do readBlock (← getu16 d).toNat
  | 0x04 => do readBlock (← getu32 d).toNat
  | 0x18 => do readBlock (← getuleb128 d).toNat
  | 0x09 => do readBlock (← getuleb128 d).toNat
  | 0x0c => do pure (.flag ((← getu8 d) ≠ 0#8))
  | 0x19 => pure (.flag true)
  | 0x17 => do pure (.word (← getint d u.dwarfLen))
  | 0x20 => do pure (.word (← getuint d 8))
  | 0x21 => pure (.word f.value)
  | _ => throwExc

/-- The values of an entry, in the order of its abbreviation. dwarf_die.cc:165-170. -/
def readValues (d : List Byte) (u : Unit) : List FormEntry → Parse (List Value)
  | [] => pure []
  | f :: fs => do
      let v ← readValue d u f
      let vs ← readValues d u fs
      pure (v :: vs)

/-- `nextSibling = values[i].sdata + unit->offset`, or 0 if there is no such attribute. Taking `sdata` of a block or a flag reads a
member of the union that is not there. dwarf_die.cc:168-169. -/
def siblingOf (u : Unit) (a : Abbrev) (values : List Value) : Parse Nat :=
  match a.nextSib with
  | none => pure 0
  | some i => match values[i]? with
    | some (.word w) => pure ((w + BitVec.ofNat 64 u.offset).toNat)
    | _ => fun _ => .ub

/-- What there is at an offset of the unit. -/
inductive Found
  /-- the end of a list of children -/
  | terminator (stop : Nat)
  /-- an entry; `stop` is where its values end, `sibling` what DW_AT_sibling says (0: nothing) -/
  | entry (type : Abbrev) (values : List Value) (sibling stop : Nat)
  deriving DecidableEq, Repr

/-- The part of `DIE::decode` and `DIE::Raw::Raw` that reads the section. An unknown abbreviation is a null pointer that is used
nevertheless. dwarf_die.cc:157-180, 373-387. -/
def scan (u : Unit) (off : Nat) : Res Found := do
  let (code, p) ← getuleb128 u.info off
  if code = 0 then .ok (.terminator p)
  else match findAbbrev u.abbrevs code.toNat with
    | none => .ub
    | some a => do
        let (values, p) ← readValues u.info u a.forms p
        let (sibling, p) ← siblingOf u a values p
        .ok (.entry a values sibling p)

/-- `DIE::Raw`. libpstack/../dwarf_die.cc:8-15. -/
structure Raw where
  type : Abbrev
  values : List Value
  parent : Nat
  firstChild : Nat
  nextSibling : Nat
  deriving DecidableEq, Repr

/-- The constructor, its section read. dwarf_die.cc:157-180. -/
def newRaw (a : Abbrev) (values : List Value) (sibling stop parent : Nat) : Raw :=
  if a.hasChildren then ⟨a, values, parent, stop, sibling⟩ else ⟨a, values, parent, 0, stop⟩

/-- A `DIE` that is not null: its offset, and which of the decoded entries (`raw`) of that offset it refers to. The cache holds one
decoded entry for an offset until `purge` is called, so its number of calls tells them apart. libpstack/dwarf.h:181-197. -/
structure Handle where
  epoch : Nat
  off : Nat
  deriving DecidableEq, Repr

/-- The decoded entries, by the number of calls of `purge` before they were decoded, and offset. `allEntries` is the ones of the
current number. (An entry of `allEntries` that is null is one that is not there.) libpstack/dwarf.h:411-419. -/
structure State where
  epoch : Nat
  cell : Nat → Nat → Option Raw

def State.get (s : State) (h : Handle) : Option Raw := s.cell h.epoch h.off

def State.set (s : State) (h : Handle) (r : Raw) : State :=
  ⟨s.epoch, fun e o => if e = h.epoch ∧ o = h.off then some r else s.cell e o⟩

/-- Change a decoded entry. -/
def State.modify (s : State) (h : Handle) (f : Raw → Raw) : State :=
  match s.get h with
  | some r => s.set h (f r)
  | none => s

/-- `parent.getOffset()`: 0 for a null `DIE`. libpstack/dwarf.h:186, 271. -/
def parentOff : Option Handle → Nat
  | some p => p.off
  | none => 0

/-- `DIE::decode`, the result put into the cache. dwarf_die.cc:373-387, dwarf_unit.cc:137. -/
def decode (parent : Option Handle) (off : Nat) (s : State) : Found → Option Handle × State
  | .terminator stop => match parent with
    | some p => (none, s.modify p (fun r => { r with nextSibling := stop }))
    | none => (none, s)
  | .entry a values sibling stop =>
    (some ⟨s.epoch, off⟩, s.set ⟨s.epoch, off⟩ (newRaw a values sibling stop (parentOff parent)))

/-- `Unit::offsetToDIE(parent, offset)`, with `offsetToRawDIE`. dwarf_unit.cc:126-157. -/
def offsetToDIE (u : Unit) (parent : Option Handle) (off : Nat) (s : State) : Res (Option Handle × State) :=
  if off = 0 ∨ off < u.offset ∨ off ≥ u.stop then .ok (none, s)
  else match s.cell s.epoch off with
    | some _ => .ok (some ⟨s.epoch, off⟩, s)
    | none => do
        let f ← scan u off
        .ok (decode parent off s f)

/-- `Unit::root()`. dwarf_unit.cc:159-161. -/
def root (u : Unit) (s : State) : Res (Option Handle × State) := offsetToDIE u none u.rootOffset s

/-- `DIE::firstChild()`. dwarf_die.cc:29-33. -/
def firstChild (u : Unit) (h : Handle) (s : State) : Res (Option Handle × State) :=
  match s.get h with
  | none => .ub
  | some r => offsetToDIE u (some h) r.firstChild s

/-- `if (currentDIE && parent && currentDIE.raw->parent == 0) currentDIE.raw->parent = parent.offset`. dwarf_die.cc:394-395, 405-406. -/
def noteParent (cur : Option Handle) (parent : Handle) (s : State) : State :=
  match cur with
  | none => s
  | some c => s.modify c (fun r => if r.parent = 0 then { r with parent := parent.off } else r)

/-- `children().begin()`. dwarf_die.cc:399-407, 646-649. -/
def begin (u : Unit) (parent : Handle) (s : State) : Res (Option Handle × State) := do
  let (c, s) ← firstChild u parent s
  .ok (c, noteParent c parent s)

/-- `DIE::nextSibling(parent)`, with the loop over the children that finds the end of an entry. A walk without end, or too deep, is
running out of fuel. dwarf_die.cc:35-51, 389-397. -/
def nextSibling (u : Unit) : Nat → Handle → Handle → State → Res (Option Handle × State)
  | 0, _, _, _ => .ub
  | fuel + 1, h, parent, s =>
      match s.get h with
      | none => .ub
      | some r => do
          let s ← if r.nextSibling = 0 then do
                    let (c, s) ← begin u h s
                    loop fuel c none h s
                  else .ok s
          match s.get h with
          | none => .ub
          | some r => offsetToDIE u (some parent) r.nextSibling s
where
  /-- `for (const auto &it : children()) last = it.raw; if (last) last->nextSibling = 0;` -/
  loop : Nat → Option Handle → Option Handle → Handle → State → Res State
    | 0, _, _, _, _ => .ub
    | _ + 1, none, none, _, s => .ok s
    | _ + 1, none, some last, _, s => .ok (s.modify last (fun r => { r with nextSibling := 0 }))
    | fuel + 1, some c, _, parent, s => do
        let (n, s) ← nextSibling u fuel c parent s
        loop fuel n (some c) parent (noteParent n parent s)

/-- `++it` of the iterator over children. dwarf_die.cc:389-397. -/
def next (u : Unit) (fuel : Nat) (cur parent : Handle) (s : State) : Res (Option Handle × State) := do
  let (n, s) ← nextSibling u fuel cur parent s
  .ok (n, noteParent n parent s)

/-- `walk(die)`: `for (const auto & c : die.children()) walk(c);`, from the iterator on. dwarf_die.cc:348-350. -/
def walkFrom (u : Unit) : Nat → Option Handle → Handle → State → Res State
  | 0, _, _, _ => .ub
  | _ + 1, none, _, s => .ok s
  | fuel + 1, some c, parent, s => do
      let (k, s) ← begin u c s
      let s ← walkFrom u fuel k c s
      let (n, s) ← next u fuel c parent s
      walkFrom u fuel n parent s

/-- `walk(die)`. -/
def walk (u : Unit) (fuel : Nat) (h : Handle) (s : State) : Res State := do
  let (c, s) ← begin u h s
  walkFrom u fuel c h s

/-- `DIE::getParentOffset()`. dwarf_die.cc:351-371. -/
def getParentOffset (u : Unit) (fuel : Nat) (h : Handle) (s : State) : Res (Nat × State) :=
  match s.get h with
  | none => .ub
  | some r => do
      let s ← if r.parent = 0 ∧ h.off ≠ u.rootOffset then do
                let (rt, s) ← root u s
                match rt with
                | none => .ub
                | some rt => walk u fuel rt s
              else .ok s
      match s.get h with
      | none => .ub
      | some r => .ok (r.parent, s)

/-- `Unit::purge()`. dwarf_unit.cc:248-254. -/
def purge (s : State) : State := ⟨s.epoch + 1, s.cell⟩

/-- A number of rounds and nested calls that is enough for any walk over the entries of a unit (Proof/Die.lean). -/
def enough (u : Unit) : Nat := 2 * u.stop + 1

/-- Before anything is decoded. -/
def State.empty : State := ⟨0, fun _ _ => none⟩

end Pstack.Die
