import Verif.Spec.Ranges
import Verif.Model.Lookup
/-
The units of addresses: .debug_aranges (DWARF 5, 6.1.2) and the addresses of the root entries of units.
-/
namespace Pstack.Spec
open Pstack.Die

/-- The ranges of one unit, in the 32-bit format. -/
structure ArangeSet where
  version : Nat
  unit : Nat
  addrSize : Nat
  pad : List Byte
  /-- start and length -/
  tuples : List (Nat × Nat)

/-- After the length: the header, filled up to a multiple of the size of a tuple, the tuples, and a tuple of zeros. -/
def ArangeSet.body (x : ArangeSet) : List Byte :=
  leBytes 2 x.version ++ (leBytes 4 x.unit ++ (leBytes 1 x.addrSize ++ (0#8 :: (x.pad ++ ((x.tuples.map (fun t => leBytes x.addrSize t.1 ++ leBytes x.addrSize t.2)).flatten ++
    (leBytes x.addrSize 0 ++ leBytes x.addrSize 0))))))

def ArangeSet.encode (x : ArangeSet) : List Byte := leBytes 4 x.body.length ++ x.body

structure ArangeSet.WF (x : ArangeSet) : Prop where
  version : x.version < 2 ^ 16
  unit : x.unit < 2 ^ 32
  addrSize : x.addrSize = 4 ∨ x.addrSize = 8
  pad : x.pad.length = 4
  tuples : ∀ t ∈ x.tuples, t.1 < 256 ^ x.addrSize ∧ t.2 < 256 ^ x.addrSize ∧ t.1 + t.2 < 2 ^ 64
  size : x.body.length < 0xfffffff0

def encodeSets (l : List ArangeSet) : List Byte := (l.map ArangeSet.encode).flatten

/-- .debug_aranges has these sets, or there is no such section. -/
structure ArangesOk (sec : Option (List Byte)) (sets : List ArangeSet) : Prop where
  wf : ∀ x ∈ sets, x.WF
  bytes : sec = some (encodeSets sets) ∨ (sec = none ∧ sets = [])
  fit : (encodeSets sets).length < 2 ^ 64

/-- .debug_aranges says that the unit at `uo` has the addresses from `lo` up to, and not with, `hi`. -/
def SetRange (sets : List ArangeSet) (uo lo hi : Nat) : Prop := ∃ x ∈ sets, x.unit = uo ∧ ∃ n, (lo, n) ∈ x.tuples ∧ hi = lo + n

/-- The root of a unit has a low and a high address. -/
def RootBounds (d : Sections) (x : DieUnit) (lo hi : Nat) : Prop :=
  EntryBounds d x x.tree.root lo hi ∧ ∀ i b, x.tree.root.find 0x12 = some i → x.tree.root.decl.attrs[i]? = some b → ¬isAddrxForm b.form

/-- The root of the unit at `uo` has this list of ranges. -/
def RootRanges (d : Sections) (xs : List DieUnit) (uo : Nat) (x : DieUnit) (l : List (Nat × Nat)) : Prop := EntryRanges d xs uo x (uo + x.rootPos) x.tree.root l

/-- The roots of units say what addresses the units have (or nothing about it), and refer to no other entry. High addresses that are in the table of
addresses are left out: `C57_not_addrx`. -/
def RootsOk (d : Sections) (xs : List DieUnit) : Prop :=
  ∀ uo x, (uo, x) ∈ placeUnits 0 xs → x.tree.root.find 0x31 = none ∧ x.tree.root.find 0x47 = none ∧
    (x.tree.root.find 0x11 = none ∨ x.tree.root.find 0x12 = none ∨ ∃ lo hi, RootBounds d x lo hi) ∧
    (x.tree.root.find 0x55 = none ∨ ∃ l, RootRanges d xs uo x l)

/-- The root of the unit at `uo` says, by a low and a high address, that it has these. -/
def BoundsRange (d : Sections) (xs : List DieUnit) (uo lo hi : Nat) : Prop := ∃ x, (uo, x) ∈ placeUnits 0 xs ∧ RootBounds d x lo hi

/-- The root of the unit at `uo` says, by a list of ranges, that it has these. -/
def ListRange (d : Sections) (xs : List DieUnit) (uo lo hi : Nat) : Prop := ∃ x l, (uo, x) ∈ placeUnits 0 xs ∧ RootRanges d xs uo x l ∧ (lo, hi) ∈ l

/-- In one way or another. -/
def UnitHas (d : Sections) (xs : List DieUnit) (sets : List ArangeSet) (uo lo hi : Nat) : Prop :=
  SetRange sets uo lo hi ∨ BoundsRange d xs uo lo hi ∨ ListRange d xs uo lo hi

/-- All these agree: ranges are not empty, and two of them are the same or apart. .debug_aranges names units. -/
structure RangesAgree (d : Sections) (xs : List DieUnit) (sets : List ArangeSet) : Prop where
  some : ∀ uo lo hi, UnitHas d xs sets uo lo hi → lo < hi ∧ hi < 2 ^ 64
  apart : ∀ uo lo hi uo' lo' hi', UnitHas d xs sets uo lo hi → UnitHas d xs sets uo' lo' hi' → (uo = uo' ∧ lo = lo' ∧ hi = hi') ∨ hi ≤ lo' ∨ hi' ≤ lo
  units : ∀ x ∈ sets, ∃ y, (x.unit, y) ∈ placeUnits 0 xs

/-! ### Programs that look up units -/

/-- A program, and what the library remembers for lookups. -/
structure LClient where
  c : IClient
  t : Lookup

/-- Any number of the things a program does (`IDid`) and of lookups, from the beginning. -/
inductive LHistory (d : Sections) (xs : List DieUnit) (sec : Option (List Byte)) : LClient → Prop
  | start : LHistory d xs sec ⟨⟨IState.empty, fun _ => [], fun _ => []⟩, ⟨none, false⟩⟩
  | step {a : LClient} {b : IClient} : LHistory d xs sec a → IDid d xs a.c b → LHistory d xs sec ⟨b, a.t⟩
  | lookup {a : LClient} {fuel : Nat} {addr r t s} : LHistory d xs sec a → lookupUnit d sec fuel addr a.t a.c.st = .ok (r, t, s) → LHistory d xs sec ⟨⟨s, a.c.dies, a.c.iters⟩, t⟩

end Pstack.Spec
