import Verif.Spec.StackText
/-
Macro information (DWARF 5, 6.3; DWARF 4, 6.3): lists of definitions, and of the files they are in.
-/
namespace Pstack.Spec
open Pstack.Die

/-- What is in the lists: a macro is defined or undefined on a line of the current file; a file is included from a line, and left again. -/
inductive MacroEvent
  | define (line : Nat) (text : List Byte)
  | undef (line : Nat) (text : List Byte)
  | enter (line : Nat) (dir : List Byte) (file : SourceFile)
  | leave

/-- Someone is told of them one after another, who may say to stop: what they are told, and whether they never said so. -/
def tellAll (goOn : List MacroEvent → MacroEvent → Bool) : List MacroEvent → List MacroEvent → List MacroEvent × Bool
  | told, [] => (told, true)
  | told, e :: es => if goOn told e then tellAll goOn (told ++ [e]) es else (told ++ [e], false)

/-! ### Version 5, and its precursor -/

/-- Entries. Text is in the list, or in .debug_str at a position, or there by its number; a file is given by its number in a line table; a list may import another; `other` is for those of vendors, with
their operands. -/
inductive MacroItem
  | define (line : Nat) (text : List Byte)
  | undef (line : Nat) (text : List Byte)
  | enter (line file : Nat)
  | leave
  | defineAt (line pos : Nat)
  | undefAt (line pos : Nat)
  | imports (pos : Nat)
  | defineNo (line no : Nat)
  | undefNo (line no : Nat)
  | other (code : Nat) (operands : List Byte)

/-- Their bytes; offsets are of `w` bytes. -/
def MacroItem.encode (w : Nat) : MacroItem → List Byte
  | .define l t => 1#8 :: (encodeU l ++ (t ++ [0#8]))
  | .undef l t => 2#8 :: (encodeU l ++ (t ++ [0#8]))
  | .enter l f => 3#8 :: (encodeU l ++ encodeU f)
  | .leave => [4#8]
  | .defineAt l p => 5#8 :: (encodeU l ++ leBytes w p)
  | .undefAt l p => 6#8 :: (encodeU l ++ leBytes w p)
  | .imports p => 7#8 :: leBytes w p
  | .defineNo l i => 0xb#8 :: (encodeU l ++ encodeU i)
  | .undefNo l i => 0xc#8 :: (encodeU l ++ encodeU i)
  | .other c ops => BitVec.ofNat 8 c :: ops

/-- A list: a version; whether offsets are wide; where its line table is; the forms of operands of entries of vendors; and the entries. -/
structure MacroList where
  version : Nat
  wide : Bool
  lines : Option Nat
  vendor : Option (List (Nat × List Byte))
  items : List MacroItem

def MacroList.width (m : MacroList) : Nat := if m.wide then 8 else 4

def vendorBytes (l : List (Nat × List Byte)) : List Byte := leBytes 1 l.length ++ (l.map (fun p => leBytes 1 p.1 ++ (encodeU p.2.length ++ p.2))).flatten

def optBytes {α : Type} (f : α → List Byte) : Option α → List Byte
  | none => []
  | some a => f a

def MacroList.flags (m : MacroList) : Nat := (if m.wide then 1 else 0) + (if m.lines.isSome then 2 else 0) + (if m.vendor.isSome then 4 else 0)

def MacroList.header (m : MacroList) : List Byte := leBytes 2 m.version ++ (leBytes 1 m.flags ++ (optBytes (leBytes m.width) m.lines ++ optBytes vendorBytes m.vendor))

def MacroList.itemBytes (m : MacroList) : List Byte := (m.items.map (MacroItem.encode m.width)).flatten

def MacroList.encode (m : MacroList) : List Byte := m.header ++ (m.itemBytes ++ [0#8])

/-- The header can be written so. -/
structure MacroList.WF (m : MacroList) : Prop where
  version : m.version < 2 ^ 16
  lines : ∀ n, m.lines = some n → n < 256 ^ m.width
  vendor : ∀ l, m.vendor = some l → l.length < 256 ∧ ∀ p ∈ l, p.1 < 256 ∧ p.2.length < 256

/-- There is such a list at this place of the section. -/
def MacroListAt (sec : List Byte) (n : Nat) (m : MacroList) : Prop := m.WF ∧ ∃ rest, sec.drop n = m.encode ++ rest

/-- String number `i` of the unit, as for attributes. -/
def StringNumber (d : Sections) (x : DieUnit) (i : Nat) (s : List Byte) : Prop := i < 2 ^ 64 ∧ ∃ a : AttrDecl, a.form = 0x1a ∧ HasString d x a (.num i) s

/-- The line table of a list. Offsets of 2^31 and more are left out (`C82_not_offset`). -/
def MacroLines (op : LineParams → LineOp → Prop) (d : Sections) (line : Option (List Byte)) (x : DieUnit) : Option Nat → Option LineTables → Prop
  | none, t => t = none
  | some n, t => n < 2 ^ 31 ∧ ∃ (sec : List Byte) (lt : LineTable) (rest : List Byte), line = some sec ∧ sec.drop n = lt.encode ++ rest ∧ lt.WF d.lineStr d.str ∧ (5 ≤ lt.version → lt.fmt64 = x.fmt64 ∧ 3 ≤ x.version) ∧ lt.Plain op ∧ t = some lt.tables

/-- What the entries of a list say. `k` is a condition on lists with text by position. -/
inductive MacroSays (k : Bool → Prop) (op : LineParams → LineOp → Prop) (d : Sections) (line : Option (List Byte)) (sec : List Byte) (x : DieUnit) :
    Bool → Option LineTables → List MacroItem → List MacroEvent → Prop
  | nil {w t} : MacroSays k op d line sec x w t [] []
  | define {w t l s is es} : l < 2 ^ 31 → GoodName s → MacroSays k op d line sec x w t is es → MacroSays k op d line sec x w t (.define l s :: is) (.define l s :: es)
  | undef {w t l s is es} : l < 2 ^ 31 → GoodName s → MacroSays k op d line sec x w t is es → MacroSays k op d line sec x w t (.undef l s :: is) (.undef l s :: es)
  | enter {w t l n f dir is es} : l < 2 ^ 31 → n < 2 ^ 64 → t.file n = some f → t.dirNames[f.dir]? = some dir → MacroSays k op d line sec x w (some t) is es →
      MacroSays k op d line sec x w (some t) (.enter l n :: is) (.enter l dir f :: es)
  | leave {w t is es} : MacroSays k op d line sec x w t is es → MacroSays k op d line sec x w t (.leave :: is) (.leave :: es)
  | defineAt {w t l n s is es} : k w → l < 2 ^ 31 → n < 256 ^ (if w then 8 else 4) → StringAt d.str n s → MacroSays k op d line sec x w t is es →
      MacroSays k op d line sec x w t (.defineAt l n :: is) (.define l s :: es)
  | undefAt {w t l n s is es} : k w → l < 2 ^ 31 → n < 256 ^ (if w then 8 else 4) → StringAt d.str n s → MacroSays k op d line sec x w t is es →
      MacroSays k op d line sec x w t (.undefAt l n :: is) (.undef l s :: es)
  | defineNo {w t l i s is es} : l < 2 ^ 31 → StringNumber d x i s → MacroSays k op d line sec x w t is es → MacroSays k op d line sec x w t (.defineNo l i :: is) (.define l s :: es)
  | undefNo {w t l i s is es} : l < 2 ^ 31 → StringNumber d x i s → MacroSays k op d line sec x w t is es → MacroSays k op d line sec x w t (.undefNo l i :: is) (.undef l s :: es)
  /-- those of the list that is imported, in its place -/
  | imports {w t n m t' is es es'} : n < 256 ^ (if w then 8 else 4) → MacroListAt sec n m → MacroLines op d line x m.lines t' → MacroSays k op d line sec x m.wide t' m.items es' →
      MacroSays k op d line sec x w t is es → MacroSays k op d line sec x w t (.imports n :: is) (es' ++ es)

/-- The root of the unit has a number as this attribute, or it has none. -/
def RootInt (x : DieUnit) (name n : Nat) : Prop :=
  ∃ i a v, x.tree.root.find name = some i ∧ x.tree.root.decl.attrs[i]? = some a ∧ x.tree.root.vals[i]? = some v ∧ HasInt x a v (Int.ofNat n)

/-- The list of a unit is at this place: the root says (0x79, DW_AT_macros, or before there was that 0x2119, DW_AT_GNU_macros). -/
def MacrosAt (x : DieUnit) (n : Nat) : Prop := RootInt x 0x2119 n ∨ (RootHasNo x 0x2119 ∧ RootInt x 0x79 n)

/-! ### Before -/

/-- Entries in .debug_macinfo; `vendor` has a number and a text. -/
inductive MacinfoItem
  | define (line : Nat) (text : List Byte)
  | undef (line : Nat) (text : List Byte)
  | enter (line file : Nat)
  | leave
  | vendor (n : Nat) (text : List Byte)

def MacinfoItem.encode : MacinfoItem → List Byte
  | .define l t => 1#8 :: (encodeU l ++ (t ++ [0#8]))
  | .undef l t => 2#8 :: (encodeU l ++ (t ++ [0#8]))
  | .enter l f => 3#8 :: (encodeU l ++ encodeU f)
  | .leave => [4#8]
  | .vendor n t => 0xff#8 :: (encodeU n ++ (t ++ [0#8]))

def macinfoBytes (l : List MacinfoItem) : List Byte := (l.map MacinfoItem.encode).flatten ++ [0#8]

/-- What they say, if the files of the unit are these. -/
inductive MacinfoSays (t : Option LineTables) : List MacinfoItem → List MacroEvent → Prop
  | nil : MacinfoSays t [] []
  | define {l s is es} : l < 2 ^ 31 → GoodName s → MacinfoSays t is es → MacinfoSays t (.define l s :: is) (.define l s :: es)
  | undef {l s is es} : l < 2 ^ 31 → GoodName s → MacinfoSays t is es → MacinfoSays t (.undef l s :: is) (.undef l s :: es)
  | enter {l n f dir is es tt} : t = some tt → l < 2 ^ 31 → n < 2 ^ 64 → tt.file n = some f → tt.dirNames[f.dir]? = some dir → MacinfoSays t is es → MacinfoSays t (.enter l n :: is) (.enter l dir f :: es)
  | leave {is es} : MacinfoSays t is es → MacinfoSays t (.leave :: is) (.leave :: es)

/-- The list of a unit is at this place (0x43, DW_AT_macro_info), and there is no newer one. -/
def MacinfoAt (x : DieUnit) (n : Nat) : Prop := RootHasNo x 0x2119 ∧ RootHasNo x 0x79 ∧ RootInt x 0x43 n

/-- The files of the unit, if it has a line table. -/
def UnitFiles (op : LineParams → LineOp → Prop) (d : Sections) (line : Option (List Byte)) (x : DieUnit) : Option LineTables → Prop
  | none => RootHasNo x 0x10 ∨ isUnitTag x.tree.root.decl.tag = false
  | some t => ∃ sec lt, line = some sec ∧ LinesOf d sec x lt ∧ lt.Plain op ∧ t = lt.tables

end Pstack.Spec
