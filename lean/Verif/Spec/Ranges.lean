import Verif.Spec.AttrValue
/-
The addresses an entry has: a low and a high address, or a list of ranges (DWARF 5, 2.17, 3.1.1; DWARF 4, 2.17.3).
-/
namespace Pstack.Spec
open Pstack.Die

/-! ### .debug_ranges (versions 2 to 4) -/

/-- An entry of a list: a range, relative to the base address, or a new base address. -/
inductive OldRange
  | range (a b : Nat)
  | base (a : Nat)

def OldRange.encode : OldRange → List Byte
  | .range a b => leBytes 8 a ++ leBytes 8 b
  | .base a => leBytes 8 (2 ^ 64 - 1) ++ leBytes 8 a

/-- The list, with its end. -/
def encodeOldRanges (l : List OldRange) : List Byte := (l.map OldRange.encode).flatten ++ (leBytes 8 0 ++ leBytes 8 0)

/-- The ranges of the list. -/
def oldRanges : Nat → List OldRange → List (Nat × Nat)
  | _, [] => []
  | base, .range a b :: l => (a + base, b + base) :: oldRanges base l
  | _, .base a :: l => oldRanges a l

/-- No entry is the end of the list or (a range) looks like a new base; addresses have 64 bits. -/
def OldRangesOk : Nat → List OldRange → Prop
  | _, [] => True
  | base, .range a b :: l => (a ≠ 0 ∨ b ≠ 0) ∧ a < 2 ^ 64 - 1 ∧ a + base < 2 ^ 64 ∧ b + base < 2 ^ 64 ∧ OldRangesOk base l
  | _, .base a :: l => a < 2 ^ 64 ∧ OldRangesOk a l

/-! ### .debug_rnglists (version 5) -/

/-- An entry of a list. DW_RLE_startx_endx is left out (`C26_not_startx_endx`). -/
inductive Rle
  | baseIndex (i : Nat)
  | indexLength (i n : Nat)
  | pair (a b : Nat)
  | base (a : Nat)
  | startEnd (a b : Nat)
  | startLength (a n : Nat)

/-- `w` is the size of an address. -/
def Rle.encode (w : Nat) : Rle → List Byte
  | .baseIndex i => 1#8 :: encodeU i
  | .indexLength i n => 3#8 :: (encodeU i ++ encodeU n)
  | .pair a b => 4#8 :: (encodeU a ++ encodeU b)
  | .base a => 5#8 :: leBytes w a
  | .startEnd a b => 6#8 :: (leBytes w a ++ leBytes w b)
  | .startLength a n => 7#8 :: (leBytes w a ++ encodeU n)

/-- The list, with its end. -/
def encodeRles (w : Nat) (l : List Rle) : List Byte := (l.map (Rle.encode w)).flatten ++ [0#8]

/-- The ranges of the list, from a base address. Numbers and addresses have 64 bits. -/
inductive RleRanges (d : Sections) (x : DieUnit) : Nat → List Rle → List (Nat × Nat) → Prop
  | done {base} : RleRanges d x base [] []
  | baseIndex {base i a l r} : i < 2 ^ 64 → AddressAt d x i a → RleRanges d x a l r → RleRanges d x base (.baseIndex i :: l) r
  | indexLength {base i n a l r} : i < 2 ^ 64 → AddressAt d x i a → n < 2 ^ 64 → a + n < 2 ^ 64 → RleRanges d x base l r → RleRanges d x base (.indexLength i n :: l) ((a, a + n) :: r)
  | pair {base a b l r} : a + base < 2 ^ 64 → b + base < 2 ^ 64 → RleRanges d x base l r → RleRanges d x base (.pair a b :: l) ((a + base, b + base) :: r)
  | base {base a l r} : a < 256 ^ x.addrSize → RleRanges d x a l r → RleRanges d x base (.base a :: l) r
  | startEnd {base a b l r} : a < 256 ^ x.addrSize → b < 256 ^ x.addrSize → RleRanges d x base l r → RleRanges d x base (.startEnd a b :: l) ((a, b) :: r)
  | startLength {base a n l r} : a < 256 ^ x.addrSize → a + n < 2 ^ 64 → RleRanges d x base l r → RleRanges d x base (.startLength a n :: l) ((a, a + n) :: r)

/-! ### Entries -/

/-- Attribute number `i` of an entry stands for the number `n`. -/
def AttrNumber (d : Sections) (x : DieUnit) (e : DieEntry) (i n : Nat) : Prop := ∃ a v, e.decl.attrs[i]? = some a ∧ e.vals[i]? = some v ∧ HasNumber d x a v n

/-- The base address of a unit: the low address of its root, or 0. -/
def BaseAddress (d : Sections) (x : DieUnit) (base : Nat) : Prop :=
  (∃ i, x.tree.root.find 0x11 = some i ∧ AttrNumber d x x.tree.root i base ∧ base < 2 ^ 64) ∨ (RootHasNo x 0x11 ∧ base = 0)

/-- At `n` of the section for lists of ranges of the unit's version there is a list with these ranges. -/
def RangesAt (d : Sections) (x : DieUnit) (base n : Nat) (l : List (Nat × Nat)) : Prop :=
  (x.version < 5 ∧ ∃ rs rest, d.ranges.drop n = encodeOldRanges rs ++ rest ∧ OldRangesOk base rs ∧ l = oldRanges base rs) ∨
  (5 ≤ x.version ∧ ∃ rs rest, d.rnglists.drop n = encodeRles x.addrSize rs ++ rest ∧ RleRanges d x base rs l)

/-- The entry has ranges (0x55), and it is the root of the unit or has no low address besides. -/
def EntryRanges (d : Sections) (xs : List DieUnit) (uo : Nat) (x : DieUnit) (o : Nat) (e : DieEntry) (l : List (Nat × Nat)) : Prop :=
  ∃ i n base, e.find 0x55 = some i ∧ AttrNumber d x e i n ∧ n < 2 ^ 64 ∧ BaseAddress d x base ∧ RangesAt d x base n l ∧
    ((o = uo + x.rootPos ∧ e = x.tree.root) ∨ Inherits xs 0x11 uo o e none)

/-- The entry has a low address (0x11) and a high one (0x12), which may be given as the size. -/
def EntryBounds (d : Sections) (x : DieUnit) (e : DieEntry) (lo hi : Nat) : Prop :=
  ∃ i j a b n, e.find 0x11 = some i ∧ e.decl.attrs[i]? = some a ∧ (a.form = 0x01 ∨ isAddrxForm a.form) ∧ AttrNumber d x e i lo ∧
    e.find 0x12 = some j ∧ e.decl.attrs[j]? = some b ∧ AttrNumber d x e j n ∧ lo < 2 ^ 64 ∧ hi < 2 ^ 64 ∧
    (((b.form = 0x01 ∨ isAddrxForm b.form) ∧ hi = n) ∨ ((isConstForm b.form ∧ b.form ≠ 0x01) ∧ hi = lo + n))

end Pstack.Spec
