import Verif.Model.FindEntry
/-
Model of the name a frame is shown with, and of the offset in the function. process.cc:378-455, dwarf_die.cc:151-156.
-/
namespace Pstack.Die
open Pstack.Dwarf Pstack.Reader

/-- `DIE::name()`. dwarf_die.cc:151-156. -/
def dieName (d : Sections) (fuel : Nat) (x : DIE) (s : IState) : Res (List Byte × IState) := do
  let (a, s) ← getAttr d fuel x 0x03 false s
  toStr d fuel a s

/-- `die.getParentOffset()`. dwarf_die.cc:351-371. -/
def parentOf (x : DIE) (s : IState) : Res (Nat × IState) := do
  let (p, t) ← getParentOffset x.unit (enough x.unit) x.h (s.st x.unit.offset)
  .ok (p, s.setSt x.unit.offset t)

/-- `if (printedParent) os << "::"; os << die.name()`. process.cc:402-405. -/
def qualify (text : List Byte) (printed : Bool) (name : List Byte) : List Byte := text ++ ((if printed then [0x3a#8, 0x3a#8] else []) ++ name)

/-- Which entries are printed. process.cc:397-401. -/
def namesScope (first : Bool) (tag : Nat) : Bool := first || tag == 0x13 || tag == 0x02 || tag == 0x39

/-- `buildDIEName(os, die, first)`: what is written to the stream, and the result. `fuel` is for `attribute`, the next number the depth of the recursion; a null `DIE`
has no attributes (`raw` is null), and its tag is read through a null pointer. process.cc:378-409. -/
def buildName (d : Sections) (fuel : Nat) : Nat → Option DIE → Bool → IState → Res (List Byte × Bool × IState)
  | 0, _, _, _ => .ub
  | _ + 1, none, _, _ => .ub
  | depth + 1, some x, first, s => do
      let (spec, s) ← getAttr d fuel x 0x47 false s
      match spec with
      | some a => do
          let (y, s) ← toDIE d (some a) s
          buildName d fuel depth y first s
      | none => do
          let (origin, s) ← getAttr d fuel x 0x31 false s
          match origin with
          | some a => do
              let (y, s) ← toDIE d (some a) s
              buildName d fuel depth y first s
          | none => do
              let r ← rawOf s x
              if r.type.tag = 0x11 ∨ r.type.tag = 0x3c then .ok ([], false, s)
              else do
                let (p, s) ← parentOf x s
                let (y, s) ← inUnit x.unit p s
                let (text, printed, s) ← buildName d fuel depth y false s
                if namesScope first r.type.tag then do
                  let (n, s) ← dieName d fuel x s
                  .ok (qualify text printed n, true, s)
                else .ok (text, printed, s)

/-- The name of a function: `buildDIEName(sos, function); dieName = sos.str()`. process.cc:421-423. -/
def qualifiedName (d : Sections) (fuel depth : Nat) (x : DIE) (s : IState) : Res (List Byte × IState) := do
  let (text, _, s) ← buildName d fuel depth (some x) true s
  .ok (text, s)

/-- `(*ranges)[0].first` -/
def firstStart : List (Nat × Nat) → Res (BitVec 64)
  | [] => .ub
  | r :: _ => .ok (BitVec.ofNat 64 r.1)

/-- The offset of an address in a function, `std::numeric_limits<Elf::Addr>::max()` if it is not known. process.cc:413, 424-435. -/
def offsetIn (d : Sections) (fuel : Nat) (x : DIE) (addr : BitVec 64) (s : IState) : Res (BitVec 64 × IState) := do
  let (low, s) ← getAttr d fuel x 0x11 false s
  match low with
  | some a => do
      let (w, s) ← toNum d fuel (some a) s
      .ok (addr - w, s)
  | none => do
      let (l, s) ← dieRanges d fuel x s
      match l with
      | some l => do
          let w ← firstStart l
          .ok (addr - w, s)
      | none => .ok (BitVec.allOnes 64, s)

/-- The offset in the ELF symbol, if the other is not known. process.cc:446-455. -/
def orSymbol (sym : Option (BitVec 64)) (addr off : BitVec 64) : BitVec 64 :=
  if off = BitVec.allOnes 64 then
    match sym with
    | some v => addr - v
    | none => off
  else off

/-- `PrintableFrame::PrintableFrame`, names of entries being asked for (`nodienames` not set): the name, the offset and the inlined functions of an address, given the entry of its function
(or none) and the value of the ELF symbol the address is in (or none). process.cc:411-456. -/
def printableFrame (d : Sections) (fuel depth rounds : Nat) (f : Option DIE) (sym : Option (BitVec 64)) (addr : BitVec 64) (s : IState) :
    Res ((List Byte × BitVec 64 × List DIE) × IState) :=
  match f with
  | none => .ok (([], orSymbol sym addr (BitVec.allOnes 64), []), s)
  | some x => do
      let (n, s) ← qualifiedName d fuel depth x s
      let (off, s) ← offsetIn d fuel x addr s
      let (l, s) ← inlinedAt d fuel depth addr rounds x s
      .ok ((n, orSymbol sym addr off, l), s)

end Pstack.Die
