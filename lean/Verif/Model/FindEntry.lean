import Verif.Model.Lookup
/-
Model of the search for the entry of an address: functions, and inlined functions in them. dwarf_die.cc:628-644, dwarfproc.cc:668-679,
process.cc:418, 436-442.
-/
namespace Pstack.Die
open Pstack.Dwarf Pstack.Reader

/-- `children().begin()`. dwarf_die.cc:399-407, 646-649. -/
def kidsBegin (x : DIE) (s : IState) : Res (Option DIE × IState) := do
  let (k, t) ← begin x.unit x.h (s.st x.unit.offset)
  .ok (k.map (⟨x.unit, ·⟩), s.setSt x.unit.offset t)

/-- `++it`, of an iterator over the children of `parent`. dwarf_die.cc:389-397. -/
def kidsNext (x parent : DIE) (s : IState) : Res (Option DIE × IState) := do
  let (k, t) ← next x.unit (enough x.unit) x.h parent.h (s.st x.unit.offset)
  .ok (k.map (⟨x.unit, ·⟩), s.setSt x.unit.offset t)

/-- `DIE::findEntryForAddr(address, t, skipStart)`. The first number is the depth of the recursion of `attribute`, the second that of this function (with
the rounds of its loop). dwarf_die.cc:628-644. -/
def findEntry (d : Sections) (fuel : Nat) (addr : BitVec 64) (t : Nat) : Nat → DIE → Bool → IState → Res (Option DIE × IState)
  | 0, _, _, _ => .ub
  | depth + 1, x, skip, s => do
      let (c, s) ← containsAddress d fuel x addr s
      match c with
      | .no => .ok (none, s)
      | .yes => do
          let r ← rawOf s x
          if skip = false ∧ r.type.tag = t then .ok (some x, s)
          else do
            let (k, s) ← kidsBegin x s
            loop depth k x s
      | .unknown => do
          let (k, s) ← kidsBegin x s
          loop depth k x s
where
  /-- `for (auto child : children())` -/
  loop : Nat → Option DIE → DIE → IState → Res (Option DIE × IState)
    | 0, _, _, _ => .ub
    | _ + 1, none, _, s => .ok (none, s)
    | depth + 1, some k, parent, s => do
        let (r, s) ← findEntry d fuel addr t depth k false s
        match r with
        | some y => .ok (some y, s)
        | none => do
            let (n, s) ← kidsNext k parent s
            loop depth n parent s

/-- `CodeLocation::die()`, the first time: the function (DW_TAG_subprogram = 0x2e) of an address. dwarfproc.cc:668-679. -/
def functionAt (d : Sections) (sec : Option (List Byte)) (fuel depth : Nat) (addr : BitVec 64) (t : Lookup) (s : IState) : Res (Option DIE × Lookup × IState) := do
  let (u, t, s) ← lookupUnit d sec fuel addr t s
  match u with
  | none => .ok (none, t, s)
  | some u => do
      let (r, s) ← rootDIE u s
      match r with
      | none => .ub
      | some r => do
          let (f, s) ← findEntry d fuel addr 0x2e depth r true s
          .ok (f, t, s)

/-- The inlined functions (DW_TAG_inlined_subroutine = 0x1d) that an address of a function is in. The loop ends when no more are found. process.cc:436-442. -/
def inlinedAt (d : Sections) (fuel depth : Nat) (addr : BitVec 64) : Nat → DIE → IState → Res (List DIE × IState)
  | 0, _, _ => .ub
  | rounds + 1, f, s => do
      let (i, s) ← findEntry d fuel addr 0x1d depth f true s
      match i with
      | none => .ok ([], s)
      | some i => do
          let (l, s) ← inlinedAt d fuel depth addr rounds i s
          .ok (i :: l, s)

end Pstack.Die
