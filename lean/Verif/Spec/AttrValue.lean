import Verif.Spec.Info
/-
What the values of attributes stand for: numbers, addresses and strings, in the entry or in the tables of other sections (DWARF 5, 7.5.5, 7.26, 7.27, 7.28).
-/
namespace Pstack.Spec
open Pstack.Die

/-- All sections are in memory. -/
structure SectionsFit (d : Sections) : Prop where
  str : d.str.length < 2 ^ 64
  lineStr : d.lineStr.length < 2 ^ 64
  ranges : d.ranges.length < 2 ^ 64
  rnglists : d.rnglists.length < 2 ^ 64
  strOffsets : ∀ s, d.strOffsets = some s → s.length < 2 ^ 64
  addr : ∀ s, d.addr = some s → s.length < 2 ^ 64

/-- The root of a unit has an attribute, an offset into a section (DW_FORM_sec_offset). Offsets of half the possible size and more are left out
(`C25_not_offset`). -/
def RootOffset (x : DieUnit) (name b : Nat) : Prop :=
  ∃ i a, x.tree.root.find name = some i ∧ x.tree.root.decl.attrs[i]? = some a ∧ x.tree.root.vals[i]? = some (.num b) ∧ a.form = 0x17 ∧ b < 2 ^ (8 * x.offSize - 1)

/-- The root has no such attribute, nor does it refer to another entry. -/
def RootHasNo (x : DieUnit) (name : Nat) : Prop := x.tree.root.find name = none ∧ x.tree.root.find 0x31 = none ∧ x.tree.root.find 0x47 = none

/-- At `b` of a section there is a table of numbers of `w` bytes, and the one with index `i` is `n`. -/
def TableHas (sec : List Byte) (w b i n : Nat) : Prop :=
  ∃ (l : List Nat) (rest : List Byte), sec.drop b = (l.map (leBytes w)).flatten ++ rest ∧ l[i]? = some n ∧ n < 256 ^ w

/-- The header of a table: its length (in the 32-bit or 64-bit format) and this after it. -/
def HeadedBy (sec : List Byte) (fmt64 : Bool) (more : List Byte) : Prop :=
  ∃ len rest, len < (if fmt64 then 2 ^ 64 else 0xfffffff0) ∧ sec = (if fmt64 then leBytes 4 0xffffffff ++ leBytes 8 len else leBytes 4 len) ++ (more ++ rest)

/-- Address number `i` of the unit: .debug_addr has, where the root says (0x73, DW_AT_addr_base), a table of addresses of 8 bytes; the size of addresses
is in its header, two bytes before. -/
def AddressAt (d : Sections) (x : DieUnit) (i n : Nat) : Prop :=
  ∃ sec b seg rest, d.addr = some sec ∧ RootOffset x 0x73 b ∧ 2 < b ∧ sec.drop (b - 2) = 8#8 :: seg :: rest ∧ TableHas sec 8 b i n

def isConstForm (f : Nat) : Bool := f = 0x0b || f = 0x05 || f = 0x06 || f = 0x07 || f = 0x0f || f = 0x01

def isAddrxForm (f : Nat) : Bool := f = 0x1b || f = 0x29 || f = 0x2a || f = 0x2b || f = 0x2c

def isStrxForm (f : Nat) : Bool := f = 0x1a || f = 0x25 || f = 0x26 || f = 0x27 || f = 0x28 || f = 0x1f02

/-- The number an attribute stands for: a constant, an address, an offset; an address by its index; a list of ranges by its index. -/
inductive HasNumber (d : Sections) (x : DieUnit) (a : AttrDecl) : AttrVal → Nat → Prop
  | const {n} : isConstForm a.form → HasNumber d x a (.num n) n
  | offset {n} : a.form = 0x17 → n < 2 ^ (8 * x.offSize - 1) → HasNumber d x a (.num n) n
  | implicit {n : Nat} : a.form = 0x21 → n < 2 ^ 64 → HasNumber d x a (.int n) n
  | address {i n} : isAddrxForm a.form → AddressAt d x i n → HasNumber d x a (.num i) n
  /-- .debug_rnglists has, where the root says (0x74, DW_AT_rnglists_base), a table of offsets from there -/
  | list {i b n} : a.form = 0x23 → RootOffset x 0x74 b → HeadedBy d.rnglists x.fmt64 [] → TableHas d.rnglists x.offSize b i n → b + n < 2 ^ 64 →
      HasNumber d x a (.num i) (b + n)

/-- The signed number. -/
inductive HasInt (x : DieUnit) (a : AttrDecl) : AttrVal → Int → Prop
  | const {n : Nat} : a.form = 0x0b ∨ a.form = 0x05 ∨ a.form = 0x06 ∨ a.form = 0x07 ∨ a.form = 0x0f → n < 2 ^ 63 → HasInt x a (.num n) n
  | offset {n : Nat} : a.form = 0x17 → n < 2 ^ (8 * x.offSize - 1) → HasInt x a (.num n) n
  | signed {z} : a.form = 0x0d ∨ a.form = 0x21 → -(2 ^ 63) ≤ z → z < 2 ^ 63 → HasInt x a (.int z) z

/-- There is a string at this place. -/
def StringAt (sec : List Byte) (n : Nat) (s : List Byte) : Prop := GoodName s ∧ ∃ rest, sec.drop n = s ++ 0#8 :: rest

/-- The string an attribute stands for: in the entry, in .debug_str, in .debug_line_str, or in .debug_str by way of .debug_str_offsets. The offsets are
where the root says (0x72, DW_AT_str_offsets_base); if it does not say, after the header of the section, or in versions before 5 at its beginning. -/
inductive HasString (d : Sections) (x : DieUnit) (a : AttrDecl) : AttrVal → List Byte → Prop
  | direct {s} : a.form = 0x08 → GoodName s → HasString d x a (.str s) s
  | str {n s} : a.form = 0x0e → n < 2 ^ (8 * x.offSize - 1) → StringAt d.str n s → HasString d x a (.num n) s
  | line {n s} : a.form = 0x1f → n < 2 ^ (8 * x.offSize - 1) → StringAt d.lineStr n s → HasString d x a (.num n) s
  | index {sec i b n s} : isStrxForm a.form → d.strOffsets = some sec → RootOffset x 0x72 b → TableHas sec x.offSize b i n → StringAt d.str n s →
      HasString d x a (.num i) s
  | indexHeader {sec fmt64 version pad i n s} : isStrxForm a.form → d.strOffsets = some sec → RootHasNo x 0x72 → 5 ≤ x.version → version < 2 ^ 16 → pad < 2 ^ 16 →
      HeadedBy sec fmt64 (leBytes 2 version ++ leBytes 2 pad) → TableHas sec (if fmt64 then 8 else 4) (if fmt64 then 16 else 8) i n → StringAt d.str n s →
      HasString d x a (.num i) s
  | indexOld {sec i n s} : isStrxForm a.form → d.strOffsets = some sec → RootHasNo x 0x72 → x.version < 5 → TableHas sec 4 0 i n → StringAt d.str n s →
      HasString d x a (.num i) s

end Pstack.Spec
