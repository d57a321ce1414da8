import Verif.Model.DwarfReader
/-
Model of public names: dwarf_pubnames.cc, dwarf_info.cc:44-57.
-/
namespace Pstack.Pubnames
open Pstack.Dwarf Pstack.Reader

/-- `PubnameUnit`; `length` has 16 bits there. libpstack/dwarf.h:139-154 -/
structure PubUnit where
  length : BitVec 16
  version : BitVec 16
  infoOffset : BitVec 32
  infoLength : BitVec 32
  names : List (BitVec 32 × List Byte)

/-- The loop over the names; each turn moves on by four bytes and more, so `fuel` bounds nothing. dwarf_pubnames.cc:20-25 -/
def pubEntries (d : List Byte) (next : Nat) : Nat → Parse (List (BitVec 32 × List Byte))
  | 0 => throwExc
  | fuel + 1 => do
      let here ← getOffset
      if here < next then do
        let offset ← getu32 d
        if offset = 0#32 then pure []
        else do
          let name ← getstring d
          let more ← pubEntries d next fuel
          pure ((offset, name) :: more)
      else pure []

/-- `PubnameUnit(r)`. dwarf_pubnames.cc:11-26 -/
def pubUnit (d : List Byte) : Parse PubUnit := do
  let len ← getu32 d
  let here ← getOffset
  let version ← getu16 d
  let infoOffset ← getu32 d
  let infoLength ← getu32 d
  let names ← pubEntries d ((here + (len.setWidth 16).toNat) % W64) (d.length + 1)
  pure ⟨len.setWidth 16, version, infoOffset, infoLength, names⟩

/-- `while (!r.empty()) pubnameUnits->emplace_back(r)`: the units that have been read, and how it ended. dwarf_info.cc:52-53 -/
def pubLoop (d : List Byte) : Nat → Nat → List PubUnit → List PubUnit × Res PUnit
  | 0, _, acc => (acc, .ub)
  | fuel + 1, off, acc =>
      if off = d.length then (acc, .ok ⟨⟩)
      else match pubUnit d off with
        | .ok (u, off) => pubLoop d fuel off (acc ++ [u])
        | .exc => (acc, .exc)
        | .ub => (acc, .ub)
        | .abort => (acc, .abort)

/-- `Info::pubnames`. The list is there as soon as it is begun. dwarf_info.cc:44-57 -/
def pubnames (sec : Option (List Byte)) : Option (List PubUnit) → Res (List PubUnit) × Option (List PubUnit)
  | some l => (.ok l, some l)
  | none =>
      match sec with
      | none => (.ok [], some [])
      | some d =>
          let r := pubLoop d (d.length + 1) 0 []
          ((do let _ ← r.2; .ok r.1), some r.1)

end Pstack.Pubnames
