import Verif.Spec.Lines
/-
Debugging entries and their encoding, as the DWARF standard has them (DWARF 5, sections 2.3, 7.5). Independent of the model.
-/
namespace Pstack.Spec

/-- Entries next to each other, each with or without a list of children. -/
inductive Forest (α : Type)
  | done
  | leaf (a : α) (rest : Forest α)
  | node (a : α) (kids rest : Forest α)

/-- A tree of entries: the root, and its children if it has a list of children. -/
structure DieTree (α : Type) where
  root : α
  kids : Option (Forest α)

namespace Forest

/-- Same shape, and entries related. -/
inductive Rel {α β : Type} (R : α → β → Prop) : Forest α → Forest β → Prop
  | done : Rel R .done .done
  | leaf {a b f g} : R a b → Rel R f g → Rel R (.leaf a f) (.leaf b g)
  | node {a b k l f g} : R a b → Rel R k l → Rel R f g → Rel R (.node a k f) (.node b l g)

/-- Every entry of the list, and below, with the entry it is a child of. -/
def withParent {α : Type} (p : α) : Forest α → List (α × α)
  | done => []
  | leaf a r => (p, a) :: r.withParent p
  | node a k r => (p, a) :: (k.withParent a ++ r.withParent p)

end Forest

/-- Same shape, and entries related. -/
inductive DieTree.Rel {α β : Type} (R : α → β → Prop) : DieTree α → DieTree β → Prop
  | leaf {a b} : R a b → Rel R ⟨a, none⟩ ⟨b, none⟩
  | node {a b f g} : R a b → Forest.Rel R f g → Rel R ⟨a, some f⟩ ⟨b, some g⟩

/-- Every entry but the root, with the entry it is a child of. -/
def DieTree.withParent {α : Type} (t : DieTree α) : List (α × α) :=
  match t.kids with
  | none => []
  | some f => f.withParent t.root

/-- The same tree with something else at each entry. -/
def Forest.map {α β : Type} (h : α → β) : Forest α → Forest β
  | done => .done
  | leaf a r => .leaf (h a) (r.map h)
  | node a k r => .node (h a) (k.map h) (r.map h)

def DieTree.map {α β : Type} (h : α → β) (t : DieTree α) : DieTree β := ⟨h t.root, t.kids.map (Forest.map h)⟩

def Forest.head? {α : Type} : Forest α → Option α
  | done => none
  | leaf a _ => some a
  | node a _ _ => some a

/-- Every entry of the list, and below, with the entry it is a child of and with the one that follows it among its siblings. -/
def Forest.steps {α : Type} (p : α) : Forest α → List (α × α × Option α)
  | done => []
  | leaf a r => (p, a, r.head?) :: r.steps p
  | node a k r => (p, a, r.head?) :: (k.steps a ++ r.steps p)

def DieTree.steps {α : Type} (t : DieTree α) : List (α × α × Option α) :=
  match t.kids with
  | none => []
  | some f => f.steps t.root

/-- Every entry of the list, and below, with its first child. -/
def Forest.firsts {α : Type} : Forest α → List (α × Option α)
  | done => []
  | leaf a r => (a, none) :: r.firsts
  | node a k r => (a, k.head?) :: (k.firsts ++ r.firsts)

def DieTree.firsts {α : Type} (t : DieTree α) : List (α × Option α) :=
  match t.kids with
  | none => [(t.root, none)]
  | some f => (t.root, f.head?) :: f.firsts

/-- All entries. -/
def DieTree.all {α : Type} (t : DieTree α) : List α := t.firsts.map (·.1)

/-! ### Attributes and their forms (7.5.3 - 7.5.6) -/

/-- How the value of an attribute is written. -/
inductive FormKind
  /-- a number in this many bytes -/
  | fixed (w : Nat)
  /-- an offset, its size that of the DWARF format -/
  | offset
  /-- DW_FORM_ref_addr: an offset, but in version 2 of the size of an address -/
  | refAddr
  | address
  | uleb
  | sleb
  /-- the string itself, with a NUL -/
  | string
  /-- bytes, their number before them -/
  | block (w : Nat)
  | blockU
  | flag
  /-- DW_FORM_flag_present, no bytes -/
  | present
  /-- DW_FORM_implicit_const, no bytes -/
  | implicit
  /-- DW_FORM_indirect, the form comes with the value -/
  | indirect
  deriving DecidableEq, Repr

/-- Table 7.6, with the GNU extensions. -/
def formKind : Nat → Option FormKind
  | 0x01 => some .address        -- addr
  | 0x03 => some (.block 2)      -- block2
  | 0x04 => some (.block 4)      -- block4
  | 0x05 => some (.fixed 2)      -- data2
  | 0x06 => some (.fixed 4)      -- data4
  | 0x07 => some (.fixed 8)      -- data8
  | 0x08 => some .string         -- string
  | 0x09 => some .blockU         -- block
  | 0x0a => some (.block 1)      -- block1
  | 0x0b => some (.fixed 1)      -- data1
  | 0x0c => some .flag           -- flag
  | 0x0d => some .sleb           -- sdata
  | 0x0e => some .offset         -- strp
  | 0x0f => some .uleb           -- udata
  | 0x10 => some .refAddr        -- ref_addr
  | 0x11 => some (.fixed 1)      -- ref1
  | 0x12 => some (.fixed 2)      -- ref2
  | 0x13 => some (.fixed 4)      -- ref4
  | 0x14 => some (.fixed 8)      -- ref8
  | 0x15 => some .uleb           -- ref_udata
  | 0x16 => some .indirect       -- indirect
  | 0x17 => some .offset         -- sec_offset
  | 0x18 => some .blockU         -- exprloc
  | 0x19 => some .present        -- flag_present
  | 0x1a => some .uleb           -- strx
  | 0x1b => some .uleb           -- addrx
  | 0x1c => some (.fixed 4)      -- ref_sup4
  | 0x1d => some .offset         -- strp_sup
  | 0x1e => some (.fixed 16)     -- data16
  | 0x1f => some .offset         -- line_strp
  | 0x20 => some (.fixed 8)      -- ref_sig8
  | 0x21 => some .implicit       -- implicit_const
  | 0x22 => some .uleb           -- loclistx
  | 0x23 => some .uleb           -- rnglistx
  | 0x24 => some (.fixed 8)      -- ref_sup8
  | 0x25 => some (.fixed 1)      -- strx1
  | 0x26 => some (.fixed 2)      -- strx2
  | 0x27 => some (.fixed 3)      -- strx3
  | 0x28 => some (.fixed 4)      -- strx4
  | 0x29 => some (.fixed 1)      -- addrx1
  | 0x2a => some (.fixed 2)      -- addrx2
  | 0x2b => some (.fixed 3)      -- addrx3
  | 0x2c => some (.fixed 4)      -- addrx4
  | 0x1f01 => some .uleb         -- GNU_addr_index
  | 0x1f02 => some .uleb         -- GNU_str_index
  | 0x1f20 => some .offset       -- GNU_ref_alt
  | 0x1f21 => some .offset       -- GNU_strp_alt
  | _ => none

/-- The value of an attribute. -/
inductive AttrVal
  | num (n : Nat)
  | int (z : Int)
  | str (s : List Byte)
  | block (bs : List Byte)
  | flag (b : Byte)

/-- What the size of a value depends on. -/
structure Sizes where
  version : Nat
  addrSize : Nat
  offSize : Nat

def Sizes.refAddr (sz : Sizes) : Nat := if sz.version = 2 then sz.addrSize else sz.offSize

/-- The bytes of a value. -/
def FormKind.encode (sz : Sizes) : FormKind → AttrVal → List Byte
  | .fixed w, .num n => leBytes w n
  | .offset, .num n => leBytes sz.offSize n
  | .refAddr, .num n => leBytes sz.refAddr n
  | .address, .num n => leBytes sz.addrSize n
  | .uleb, .num n => encodeU n
  | .sleb, .int z => encodeS z
  | .string, .str s => s ++ [0#8]
  | .block w, .block bs => leBytes w bs.length ++ bs
  | .blockU, .block bs => encodeU bs.length ++ bs
  | .flag, .flag b => [b]
  | _, _ => []

/-- The form can express the value (`c` is the constant in the abbreviation). -/
def FormKind.Fits (sz : Sizes) (c : Int) : FormKind → AttrVal → Prop
  | .fixed w, .num n => n < 256 ^ w
  | .offset, .num n => n < 256 ^ sz.offSize
  | .refAddr, .num n => n < 256 ^ sz.refAddr
  | .address, .num n => n < 256 ^ sz.addrSize
  | .uleb, .num n => n < 2 ^ 64
  | .sleb, .int z => -2 ^ 63 ≤ z ∧ z < 2 ^ 63
  | .string, .str s => GoodName s
  | .block w, .block bs => bs.length < 256 ^ w
  | .blockU, .block _ => True
  | .flag, .flag _ => True
  | .present, .flag b => b = 1#8
  | .implicit, .int z => z = c
  | _, _ => False

/-- An attribute in an abbreviation declaration. -/
structure AttrDecl where
  name : Nat
  form : Nat
  const : Int

/-- An abbreviation declaration. -/
structure DieDecl where
  code : Nat
  tag : Nat
  children : Bool
  attrs : List AttrDecl

def AttrDecl.encode (a : AttrDecl) : List Byte :=
  encodeU a.name ++ (encodeU a.form ++ if a.form = 0x21 then encodeS a.const else [])

def DieDecl.encode (x : DieDecl) : List Byte :=
  encodeU x.code ++ (encodeU x.tag ++ ([if x.children then 1#8 else 0#8] ++ ((x.attrs.map AttrDecl.encode).flatten ++ [0#8, 0#8])))

/-- An abbreviation table. -/
def encodeDecls (l : List DieDecl) : List Byte := (l.map DieDecl.encode).flatten ++ [0#8]

structure AttrDecl.WF (a : AttrDecl) : Prop where
  name : 0 < a.name ∧ a.name < 2 ^ 32
  form : a.form < 2 ^ 32
  const : -2 ^ 63 ≤ a.const ∧ a.const < 2 ^ 63

structure DieDecl.WF (x : DieDecl) : Prop where
  code : 0 < x.code ∧ x.code < 2 ^ 64
  tag : x.tag < 2 ^ 32
  attrs : ∀ a ∈ x.attrs, a.WF

/-- An entry: its abbreviation, and the values of its attributes. -/
structure DieEntry where
  decl : DieDecl
  vals : List AttrVal

def encodeVals (sz : Sizes) : List AttrDecl → List AttrVal → List Byte
  | a :: as, v :: vs => (match formKind a.form with | some k => k.encode sz v | none => []) ++ encodeVals sz as vs
  | _, _ => []

def DieEntry.encode (sz : Sizes) (e : DieEntry) : List Byte := encodeU e.decl.code ++ encodeVals sz e.decl.attrs e.vals

/-- The forms of references to an entry of the same unit. -/
def IsLocalRef (form : Nat) : Prop := 0x11 ≤ form ∧ form ≤ 0x15

/-- `end_` is where the subtree of the entry ends, from the beginning of the unit: that is what a sibling attribute (DW_AT_sibling = 1)
has to say. -/
def AttrFits (sz : Sizes) (end_ : Nat) (a : AttrDecl) (v : AttrVal) : Prop :=
  (∃ k, formKind a.form = some k ∧ k.Fits sz a.const v) ∧ (a.name = 1 → IsLocalRef a.form ∧ v = .num end_)

def ValsFit (sz : Sizes) (end_ : Nat) : List AttrDecl → List AttrVal → Prop
  | [], [] => True
  | a :: as, v :: vs => AttrFits sz end_ a v ∧ ValsFit sz end_ as vs
  | _, _ => False

/-- The bytes of entries, each followed by its children, the end of the list marked by a 0. -/
def Forest.encode (sz : Sizes) : Forest DieEntry → List Byte
  | done => [0#8]
  | leaf e r => e.encode sz ++ r.encode sz
  | node e k r => e.encode sz ++ (k.encode sz ++ r.encode sz)

def DieTree.encode (sz : Sizes) (t : DieTree DieEntry) : List Byte :=
  t.root.encode sz ++ (match t.kids with | none => [] | some f => f.encode sz)

/-- The entries use these abbreviations properly. `pos` is where they are, from the beginning of the unit. -/
def Forest.WF (sz : Sizes) (decls : List DieDecl) : Nat → Forest DieEntry → Prop
  | _, done => True
  | pos, leaf e r => e.decl ∈ decls ∧ e.decl.children = false ∧ ValsFit sz (pos + (e.encode sz).length) e.decl.attrs e.vals ∧
      r.WF sz decls (pos + (e.encode sz).length)
  | pos, node e k r => e.decl ∈ decls ∧ e.decl.children = true ∧
      ValsFit sz (pos + (e.encode sz).length + (k.encode sz).length) e.decl.attrs e.vals ∧
      k.WF sz decls (pos + (e.encode sz).length) ∧ r.WF sz decls (pos + (e.encode sz).length + (k.encode sz).length)

def DieTree.WF (sz : Sizes) (decls : List DieDecl) (pos : Nat) (t : DieTree DieEntry) : Prop :=
  t.root.decl ∈ decls ∧ ValsFit sz (pos + (t.encode sz).length) t.root.decl.attrs t.root.vals ∧
  (match t.kids with
   | none => t.root.decl.children = false
   | some f => t.root.decl.children = true ∧ f.WF sz decls (pos + (t.root.encode sz).length))

/-- Each entry with where it is. -/
def Forest.place (sz : Sizes) : Nat → Forest DieEntry → Forest (Nat × DieEntry)
  | _, done => .done
  | pos, leaf e r => .leaf (pos, e) (r.place sz (pos + (e.encode sz).length))
  | pos, node e k r => .node (pos, e) (k.place sz (pos + (e.encode sz).length)) (r.place sz (pos + (e.encode sz).length + (k.encode sz).length))

def DieTree.place (sz : Sizes) (pos : Nat) (t : DieTree DieEntry) : DieTree (Nat × DieEntry) :=
  ⟨(pos, t.root), t.kids.map (Forest.place sz (pos + (t.root.encode sz).length))⟩

/-! ### Units (7.5.1) -/

/-- A unit. In version 5 it has a type: 1 full, 3 partial, 4 skeleton, 5 split; (type units are left out, 7.5.1.3). Units of types 4 and 5
have an identifier. `pad` follows the entries. -/
structure DieUnit where
  fmt64 : Bool
  version : Nat
  kind : Nat
  addrSize : Nat
  id : List Byte
  abbrevPos : Nat
  decls : List DieDecl
  tree : DieTree DieEntry
  pad : List Byte

namespace DieUnit

def offSize (x : DieUnit) : Nat := if x.fmt64 then 8 else 4

def sizes (x : DieUnit) : Sizes := ⟨x.version, x.addrSize, x.offSize⟩

/-- The header after the length. -/
def header (x : DieUnit) : List Byte :=
  leBytes 2 x.version ++
  (if 5 ≤ x.version then leBytes 1 x.kind ++ (leBytes 1 x.addrSize ++ (leBytes x.offSize x.abbrevPos ++ x.id))
   else leBytes x.offSize x.abbrevPos ++ leBytes 1 x.addrSize)

def body (x : DieUnit) : List Byte := x.header ++ (x.tree.encode x.sizes ++ x.pad)

def lengthField (x : DieUnit) : List Byte :=
  if x.fmt64 then leBytes 4 0xffffffff ++ leBytes 8 x.body.length else leBytes 4 x.body.length

def encode (x : DieUnit) : List Byte := x.lengthField ++ x.body

/-- Where the root is, from the beginning of the unit. -/
def rootPos (x : DieUnit) : Nat := x.lengthField.length + x.header.length

/-- The entries with their places, the unit being at `off`. -/
def placed (x : DieUnit) (off : Nat) : DieTree (Nat × DieEntry) := x.tree.place x.sizes (off + x.rootPos)

/-- Where the entries are. -/
def offsets (x : DieUnit) (off : Nat) : DieTree Nat := (x.placed off).map (·.1)

structure WF (x : DieUnit) : Prop where
  version : 2 ≤ x.version ∧ x.version ≤ 5
  kind : 5 ≤ x.version → ((x.kind = 1 ∨ x.kind = 3) ∧ x.id = []) ∨ ((x.kind = 4 ∨ x.kind = 5) ∧ x.id.length = 8)
  addrSize : x.addrSize = 1 ∨ x.addrSize = 2 ∨ x.addrSize = 4 ∨ x.addrSize = 8
  /-- version 2 has no 64-bit format -/
  v2 : x.version = 2 → x.fmt64 = false
  abbrevPos : x.abbrevPos < 256 ^ x.offSize
  decls : ∀ a ∈ x.decls, a.WF
  /-- the codes of a table are different -/
  codes : x.decls.Pairwise (fun a b => a.code ≠ b.code)
  tree : x.tree.WF x.sizes x.decls x.rootPos

end DieUnit

end Pstack.Spec
