import Verif.Spec.Reader
import Verif.Spec.Dwarf
/-
Location lists (DWARF 4, 2.6.2 and DWARF 5, 2.6.2 and 7.7.3): encoding and meaning.
-/
namespace Pstack.Spec

/-- Entries of a list. Addresses in entries are those of the object file. -/
inductive LocEntry where
  /-- A range relative to the base address. -/
  | pair (start stop : Nat) (code : List Byte)
  /-- A new base address. -/
  | base (a : Nat)
  /-- A range given by its start and length. -/
  | startLength (start length : Nat) (code : List Byte)

/-- Encoding as in .debug_loclists (DWARF 5), with 8-byte addresses. -/
def LocEntry.encode5 : LocEntry → List Byte
  | .pair s e code => 0x04#8 :: (encodeU s ++ (encodeU e ++ (encodeU code.length ++ code)))
  | .base a => 0x06#8 :: leBytes 8 a
  | .startLength s l code => 0x08#8 :: (leBytes 8 s ++ (encodeU l ++ (encodeU code.length ++ code)))

/-- Encoding as in .debug_loc (DWARF 2 to 4), with 8-byte addresses: a base address is a pair that starts at the largest
address and has no expression. -/
def LocEntry.encode4 : LocEntry → List Byte
  | .pair s e code => leBytes 8 s ++ (leBytes 8 e ++ (leBytes 2 code.length ++ code))
  | .base a => leBytes 8 (2 ^ 64 - 1) ++ leBytes 8 a
  | .startLength _ _ _ => []

def encodeList5 (es : List LocEntry) : List Byte := (es.map LocEntry.encode5).flatten ++ [0x00#8]
def encodeList4 (es : List LocEntry) : List Byte := (es.map LocEntry.encode4).flatten ++ (leBytes 8 0 ++ leBytes 8 0)

/-- The expression for address `a` of the object, when the base is `base`: that of the first entry whose half-open range
contains the address. -/
def locate (a : Nat) : Nat → List LocEntry → Option (List Byte)
  | _, [] => none
  | base, .pair s e code :: es => if base + s ≤ a ∧ a < base + e then some code else locate a base es
  | _, .base b :: es => locate a b es
  | base, .startLength s l code :: es => if s ≤ a ∧ a < s + l then some code else locate a base es

/-- All addresses fit in 64 bits wherever the object is loaded (`top` is the highest load address). -/
def FitsAt (reloc : Nat) : Nat → List LocEntry → Prop
  | _, [] => True
  | base, .pair s e code :: es => s < 2 ^ 64 ∧ e < 2 ^ 64 ∧ reloc + base + s < 2 ^ 64 ∧ reloc + base + e < 2 ^ 64 ∧ code.length < 2 ^ 64 ∧ FitsAt reloc base es
  | _, .base b :: es => reloc + b < 2 ^ 64 ∧ FitsAt reloc b es
  | base, .startLength s l code :: es => reloc + s + l < 2 ^ 64 ∧ code.length < 2 ^ 64 ∧ FitsAt reloc base es

/-- Entries that carry their own absolute start are only used while the base address is 0, as in a unit with no low pc. -/
def StartsAtZero : Nat → List LocEntry → Prop
  | _, [] => True
  | base, .startLength _ _ _ :: es => base = 0 ∧ StartsAtZero base es
  | _, .base b :: es => StartsAtZero b es
  | base, .pair _ _ _ :: es => StartsAtZero base es

/-- Lists of .debug_loc with no base address entries. -/
def OnlyPairs : List LocEntry → Prop
  | [] => True
  | .pair s e code :: es => (s ≠ 0 ∨ e ≠ 0) ∧ code.length < 2 ^ 16 ∧ OnlyPairs es
  | _ :: _ => False

end Pstack.Spec
