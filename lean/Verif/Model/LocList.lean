import Verif.Model.Unwind
/-
Model of `ExpressionStack::eval(proc, attr, frame, reloc)`: location lists and the choice of an expression.
dwarfproc.cc:110-205.
-/
namespace Pstack.LocList
open Pstack.Dwarf Pstack.Arch Pstack.Expr

/-- What the search of a list ends with: no entry (`return 0`), or the bytes of an expression, by offset and end. -/
abbrev Found := Option (Nat × Nat)

/-- One entry of a .debug_loclists list: `.inl` is the end of the search, `.inr` the base for the following entries.
`addrs` is `readObj` at an offset of .debug_addr. dwarfproc.cc:133-181. -/
def entryV5 (d : List Byte) (addrs : Nat → Res (BitVec 64)) (addrlen : Nat) (reloc ip base : BitVec 64) : Parse (Found ⊕ BitVec 64) := do
  let lle ← getu8 d
  match lle.toNat with
  | 0 => pure (.inl none)
  | 4 => do
      let start ← getuleb128 d
      let stop ← getuleb128 d
      let len ← getuleb128 d
      let off ← getOffset
      if base + start ≤ ip ∧ ip < base + stop then pure (.inl (some (off, (off + len.toNat) % W64)))
      else do
        skip len.toNat
        pure (.inr base)
  | 6 => do
      let a ← getuint d addrlen
      pure (.inr (reloc + a))
  | 1 => do
      let idx ← getuleb128 d
      fun off => do
        let b ← addrs ((idx.toNat * addrlen) % W64)
        .ok (.inr b, off)
  | 8 => do
      let start ← getuint d addrlen
      let length ← getuleb128 d
      let len ← getuleb128 d
      let off ← getOffset
      if base + start ≤ ip ∧ ip < base + (start + length) then pure (.inl (some (off, (off + len.toNat) % W64)))
      else do
        skip len.toNat
        pure (.inr base)
  | _ => throwExc

/-- The loop over a .debug_loclists list; every entry takes at least one byte, so `d.length + 1` entries are enough (running
out of fuel stands for not terminating: `skip` may move the cursor back by wrapping around). dwarfproc.cc:133-182. -/
def searchV5 (d : List Byte) (addrs : Nat → Res (BitVec 64)) (addrlen : Nat) (reloc ip : BitVec 64) : Nat → BitVec 64 → Nat → Res Found
  | 0, _, _ => .ub
  | fuel + 1, base, off =>
      match entryV5 d addrs addrlen reloc ip base off with
      | .ok (.inl r, _) => .ok r
      | .ok (.inr base, off) => searchV5 d addrs addrlen reloc ip fuel base off
      | .exc => .exc
      | .ub => .ub
      | .abort => .abort

/-- One entry of a .debug_loc list. dwarfproc.cc:189-200. -/
def entryV4 (d : List Byte) (ip base : BitVec 64) : Parse (Option Found) := do
  let start ← getint d 8
  let stop ← getint d 8
  if start = 0 ∧ stop = 0 then pure (some none)
  else do
    let len ← getuint d 2
    let off ← getOffset
    if base + start ≤ ip ∧ ip < base + stop then pure (some (some (off, (off + len.toNat % 2 ^ 32) % W64)))
    else do
      skip len.toNat
      pure none

/-- The loop over a .debug_loc list. dwarfproc.cc:188-201. -/
def searchV4 (d : List Byte) (ip base : BitVec 64) : Nat → Nat → Res Found
  | 0, _ => .ub
  | fuel + 1, off =>
      match entryV4 d ip base off with
      | .ok (some r, _) => .ok r
      | .ok (none, off) => searchV4 d ip base fuel off
      | .exc => .exc
      | .ub => .ub
      | .abort => .abort

/-- Evaluate the expression that was found, or return 0. dwarfproc.cc:136-147, 191-198. -/
def evalFound (env : Env) (d : List Byte) (reloc : BitVec 64) (stack : List (BitVec 64)) : Res Found → Out (BitVec 64)
  | .ok none => .ok 0
  | .ok (some (off, endOff)) => do
      let (_, v) ← eval env d reloc stack 0 off endOff
      return v
  | .exc => .exc
  | .ub => .ub
  | .abort => .abort

/-- The case of a section offset: `list` is the attribute's value, `low` the unit's low pc.
dwarfproc.cc:112-202. -/
def evalList (env : Env) (version : Nat) (d : List Byte) (addrs : Nat → Res (BitVec 64)) (addrlen list : Nat)
    (reloc low ip : BitVec 64) (stack : List (BitVec 64)) : Out (BitVec 64) :=
  let base := reloc + low
  evalFound env d reloc stack
    (if version ≥ 5 then searchV5 d addrs addrlen reloc ip (d.length + 1) base list else searchV4 d ip base (d.length + 1) list)

end Pstack.LocList
