import Verif.Model.Ranges
import Verif.Model.Map
/-
Model of the search for the unit of an address. dwarf_info.cc:133-213.
An exception leaves what was read up to then in the real map, and sets `aranges` and `unitRangesCached` all the same; here it ends the lookup
without a state.
-/
namespace Pstack.Die
open Pstack.Dwarf Pstack.Reader

/-- `ARanges`: from the end of a range to its length and the offset of the unit. libpstack/dwarf.h:317. -/
abbrev ARanges := OMap (Nat × Nat)

/-- The loop over the tuples of a set. With addresses of one byte or more every round takes bytes, so `sec.length + 1` rounds are enough.
dwarf_info.cc:162-166. -/
def arangeTuples (sec : List Byte) (addrlen next uo : Nat) : Nat → Nat → ARanges → Res (ARanges × Nat)
  | 0, _, _ => .exc
  | rounds + 1, off, m =>
      if off < next then do
        let (start, off) ← getuint sec addrlen off
        let (len, off) ← getuint sec addrlen off
        arangeTuples sec addrlen next uo rounds off (m.assign (start + len).toNat (len.toNat, uo))
      else .ok (m, off)

/-- `Info::decodeARangeSet(r)`. dwarf_info.cc:133-167. -/
def arangeSet (sec : List Byte) (start : Nat) (m : ARanges) : Res (ARanges × Nat) := do
  let ((length, _), off) ← getlength sec start
  let next := (off + length) % W64
  let (_, off) ← getu16 sec off
  let (uo, off) ← getu32 sec off
  let (al, off) ← getu8 sec off
  let addrlen := if al = 0 then 1 else al.toNat
  let (seg, off) ← getu8 sec off
  if seg ≠ 0 then .ok (m, off)
  else do
    let tupleLen := addrlen * 2
    let align := tupleLen - (off - start) % tupleLen
    arangeTuples sec addrlen next uo.toNat (sec.length + 1) ((off + align) % W64) m

/-- `while (!r.empty()) decodeARangeSet(r)`. A set takes bytes, so `sec.length + 1` rounds are enough. dwarf_info.cc:176-177. -/
def arangeSets (sec : List Byte) : Nat → Nat → ARanges → Res ARanges
  | 0, _, _ => .exc
  | rounds + 1, off, m =>
      if off = sec.length then .ok m
      else do
        let (m, off) ← arangeSet sec off m
        arangeSets sec rounds off m

/-- `upper_bound(addr)`, and whether the range that ends there has the address. dwarf_info.cc:180-182, 209-211. -/
def findRange (m : ARanges) (addr : BitVec 64) : Option Nat :=
  match m.dropWhile (fun e => e.1 ≤ addr.toNat) with
  | [] => none
  | (stop, len, uo) :: _ => if (BitVec.ofNat 64 stop - BitVec.ofNat 64 len).toNat ≤ addr.toNat then some uo else none

/-- The low and high address of the root of a unit. dwarf_info.cc:192-199. -/
def addBounds (d : Sections) (fuel : Nat) (uo : Nat) (low high : Option Attr) (m : ARanges) (s : IState) : Res (ARanges × IState) :=
  match low, high with
  | some low, some high => do
      let (lo, s) ← toNum d fuel (some low) s
      let (hi, s) ← toNum d fuel (some high) s
      let f ← high.form s
      let hi := if f ≠ 0x01 then hi + lo else hi
      .ok (m.assign hi.toNat ((hi - lo).toNat, uo), s)
  | _, _ => .ok (m, s)

/-- `for (auto r : *ranges) (*aranges)[r.second] = { r.first, u->offset }`. dwarf_info.cc:202-204. -/
def addList (uo : Nat) (l : Option (List (Nat × Nat))) (m : ARanges) : ARanges :=
  match l with
  | none => m
  | some l => l.foldl (fun m r => m.assign r.2 (r.1, uo)) m

/-- What is done for one unit. dwarf_info.cc:190-204. -/
def addUnit (d : Sections) (fuel : Nat) (u : Unit) (m : ARanges) (s : IState) : Res (ARanges × IState) := do
  let (r, s) ← rootDIE u s
  match r with
  | none => .ub
  | some r => do
      let (low, s) ← getAttr d fuel r 0x11 false s
      let (high, s) ← getAttr d fuel r 0x12 false s
      let (m, s) ← addBounds d fuel u.offset low high m s
      let (l, s) ← dieRanges d fuel r s
      .ok (addList u.offset l m, s)

/-- `for (auto u : getUnits()) ...`, from a unit on. dwarf_info.cc:189-205. -/
def addUnits (d : Sections) (fuel : Nat) : Nat → Option Unit → ARanges → IState → Res (ARanges × IState)
  | 0, _, _, _ => .ub
  | _ + 1, none, m, s => .ok (m, s)
  | rounds + 1, some u, m, s => do
      let (m, s) ← addUnit d fuel u m s
      let (v, s) ← nextUnit d u s
      addUnits d fuel rounds v m s

/-- What `Info` remembers for lookups: `aranges` and `unitRangesCached`. libpstack/dwarf.h:728, 733. -/
structure Lookup where
  map : Option ARanges
  cached : Bool

/-- `Lookup::aranges`, made when it is first needed. `sec` is .debug_aranges, if there is one. dwarf_info.cc:171-179. -/
def loadMap (sec : Option (List Byte)) (t : Lookup) : Res ARanges :=
  match t.map, sec with
  | some m, _ => .ok m
  | none, none => .ok []
  | none, some sec => arangeSets sec (sec.length + 1) 0 []

/-- The ranges of all units, unless they are in already. Units do not overlap and have at least one byte. dwarf_info.cc:184-206. -/
def addAll (d : Sections) (fuel : Nat) (cached : Bool) (m : ARanges) (s : IState) : Res (ARanges × IState) :=
  if cached then .ok (m, s)
  else do
    let (u, s) ← getUnit d 0 s
    addUnits d fuel (d.info.length + 2) (some u) m s

/-- `Info::lookupUnit(addr)`. dwarf_info.cc:169-213. -/
def lookupUnit (d : Sections) (sec : Option (List Byte)) (fuel : Nat) (addr : BitVec 64) (t : Lookup) (s : IState) : Res (Option Unit × Lookup × IState) := do
  let m ← loadMap sec t
  match findRange m addr with
  | some uo => do
      let (u, s) ← getUnit d uo s
      .ok (some u, ⟨some m, t.cached⟩, s)
  | none => do
      let (m, s) ← addAll d fuel t.cached m s
      match findRange m addr with
      | some uo => do
          let (u, s) ← getUnit d uo s
          .ok (some u, ⟨some m, true⟩, s)
      | none => .ok (none, ⟨some m, true⟩, s)

end Pstack.Die
