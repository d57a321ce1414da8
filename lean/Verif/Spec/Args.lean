import Verif.Spec.FindEntry
import Verif.Spec.AttrValue
import Verif.Spec.Expr
import Verif.Spec.LocList
import Verif.Spec.Python
/-
What is to be shown of the arguments of a function: types and values (DWARF 5, 4.1, 5.1, 5.2, 5.3), and where the values are (2.6).
-/
namespace Pstack.Spec
open Pstack.Die Pstack.Python

/-- Text, as bytes. -/
def asciiText (s : String) : List Byte := s.toList.map (fun c => BitVec.ofNat 8 c.toNat)

/-- A number, in decimal notation. -/
def decimalText (z : Int) : List Byte := asciiText (toString z)

/-- An address, in hexadecimal notation; 0 for none. -/
def addressText (n : Nat) : List Byte := if n = 0 then asciiText "0" else asciiText "0x" ++ asciiText (String.ofList (Nat.toDigits 16 n))

/-- An entry, its place, and the unit it is in. -/
structure EntryRef where
  uo : Nat
  x : DieUnit
  o : Nat
  e : DieEntry

def EntryRef.In (xs : List DieUnit) (p : EntryRef) : Prop := EntryIn xs p.uo p.x p.o p.e

/-- The number of an attribute, which may be inherited. -/
def NumberOf (d : Sections) (xs : List DieUnit) (p : EntryRef) (name n : Nat) : Prop :=
  ∃ uo x o e i, Inherits xs name p.uo p.o p.e (some (uo, x, o, e, i)) ∧ AttrNumber d x e i n

/-- There is no such attribute. -/
def Lacks (xs : List DieUnit) (p : EntryRef) (name : Nat) : Prop := Inherits xs name p.uo p.o p.e none

/-- The name (3) of an entry, which may be inherited; without one it is empty. -/
inductive NamedAs (d : Sections) (xs : List DieUnit) (p : EntryRef) : List Byte → Prop
  | named {uo x o e i a v n} : Inherits xs 3 p.uo p.o p.e (some (uo, x, o, e, i)) → e.decl.attrs[i]? = some a → e.vals[i]? = some v → HasString d x a v n → NamedAs d xs p n
  | anonymous : Lacks xs p 3 → NamedAs d xs p []

/-! ### Types -/

/-- The type (0x49) an entry refers to; `none` is void. -/
inductive TypeOf (xs : List DieUnit) (p : EntryRef) : Option EntryRef → Prop
  | refers {uo x o e i a v q} : Inherits xs 0x49 p.uo p.o p.e (some (uo, x, o, e, i)) → e.decl.attrs[i]? = some a → e.vals[i]? = some v → RefTo uo a v q.o → q.In xs → TypeOf xs p (some q)
  | void : Lacks xs p 0x49 → TypeOf xs p none

/-- Other names of types (typedefs, 0x16) and qualified types: const (0x26), volatile (0x35), restrict (0x37) and atomic (0x47). -/
def isAlias (t : Nat) : Bool := t = 0x16 || t = 0x26 || t = 0x35 || t = 0x37 || t = 0x47

/-- Pointers (0xf) and references (0x10). -/
def isPointer (t : Nat) : Bool := t = 0x0f || t = 0x10

/-- Types of which nothing but the name is shown: neither base types (0x24) nor pointers nor aliases. -/
def isOpaque (t : Nat) : Bool := !(t = 0x24 || isPointer t || isAlias t)

/-- What is known: which tags are seen through; how large unsigned numbers of so many bytes can be; which expressions; whether there are values that are computed (`DW_OP_stack_value`);
which lists of locations, by the version and the base address; which objects, by their size, in registers of which contents. -/
structure Knows where
  alias : Nat → Bool
  below : Nat → Nat
  exact : Machine → Expr → Prop
  computed : Prop
  listed : Nat → Nat → List LocEntry → Prop
  held : Nat → BitVec 64 → Prop

/-- All there is. -/
def knowsAll : Knows := ⟨isAlias, fun w => 256 ^ w, fun _ _ => True, True, fun _ _ _ => True, fun w _ => w ≤ 8⟩

/-- What pstack knows. -/
def knowsSome : Knows where
  alias t := t = 0x16 || t = 0x26 || t = 0x35
  below w := 2 ^ (8 * w - 1)
  exact m e := e.Exact m
  computed := False
  listed version base es := if 5 ≤ version then StartsAtZero base es else OnlyPairs es
  held w v := w = 8 ∧ v ≠ 0

/-- The type an alias stands for. -/
inductive Resolves (k : Knows) (xs : List DieUnit) : Option EntryRef → Option EntryRef → Prop
  | void : Resolves k xs none none
  | plain {p} : p.In xs → k.alias p.e.decl.tag = false → Resolves k xs (some p) (some p)
  | alias {p q r} : p.In xs → k.alias p.e.decl.tag = true → TypeOf xs p q → Resolves k xs q r → Resolves k xs (some p) r

/-- The size of an object of the type: what the type says (0xb); pointers need not say it, and 0 if nothing is said. -/
inductive SizeIs (d : Sections) (xs : List DieUnit) (p : EntryRef) : Nat → Prop
  | says {w} : NumberOf d xs p 0x0b w → SizeIs d xs p w
  | silent : Lacks xs p 0x0b → SizeIs d xs p (if isPointer p.e.decl.tag then 8 else 0)

/-! ### Values -/

/-- The bytes of a number. -/
def NumBytes (w n : Nat) (bs : List Byte) : Prop := n < 256 ^ w ∧ bs = leBytes w n

/-- The bytes of a signed number, in two's complement. -/
def IntBytes (w : Nat) (z : Int) (bs : List Byte) : Prop :=
  -(2 ^ (8 * w - 1) : Int) ≤ z ∧ z < 2 ^ (8 * w - 1) ∧ bs = leBytes w (if 0 ≤ z then z else z + 2 ^ (8 * w)).toNat

/-- The text for an object of a base type, by its encoding (DWARF 5, 5.1.1) and its bytes. -/
inductive BaseShows (k : Knows) : Nat → List Byte → List Byte → Prop
  | address {n bs} : NumBytes 8 n bs → BaseShows k 1 bs (addressText n)
  | boolean {w n bs} : 0 < w → NumBytes w n bs → BaseShows k 2 bs (if n = 0 then asciiText "false" else asciiText "true")
  | signed {w z bs} : w = 2 ∨ w = 4 ∨ w = 8 → IntBytes w z bs → BaseShows k 5 bs (decimalText z)
  | unsigned {w n bs} : w = 2 ∨ w = 4 ∨ w = 8 → NumBytes w n bs → n < k.below w → BaseShows k 7 bs (decimalText n)
  | signedChar {b} : BaseShows k 6 [b] [b]
  | unsignedChar {b} : BaseShows k 8 [b] [b]

/-- These bytes are in memory at this address. -/
def StoredAt (mem : Mem) (a : Nat) (bs : List Byte) : Prop := ∀ i (h : i < bs.length), mem (a + i) = some bs[i]

/-- The text for an object: its type (no alias) and its bytes. Pointers show what they point to; pointers to `char`, a string. -/
inductive ObjectText (k : Knows) (d : Sections) (xs : List DieUnit) (mem : Mem) : EntryRef → List Byte → List Byte → Prop
  | base {p enc bs t} : p.In xs → p.e.decl.tag = 0x24 → NumberOf d xs p 0x3e enc → BaseShows k enc bs t → ObjectText k d xs mem p bs t
  | void {p r n bs} : p.In xs → isPointer p.e.decl.tag → NumBytes 8 n bs → TypeOf xs p r → Resolves k xs r none → ObjectText k d xs mem p bs (addressText n)
  | string {p r c n s bs} : p.In xs → isPointer p.e.decl.tag → NumBytes 8 n bs → TypeOf xs p r → Resolves k xs r (some c) → NamedAs d xs c (asciiText "char") → CStrAt mem n s →
      ObjectText k d xs mem p bs (addressText n ++ (asciiText " \"" ++ (s ++ asciiText "\"")))
  | noString {p r c bs} : p.In xs → isPointer p.e.decl.tag → NumBytes 8 0 bs → TypeOf xs p r → Resolves k xs r (some c) → NamedAs d xs c (asciiText "char") →
      ObjectText k d xs mem p bs (asciiText "0 \"(null)\"")
  | null {p r c nm bs} : p.In xs → isPointer p.e.decl.tag → NumBytes 8 0 bs → TypeOf xs p r → Resolves k xs r (some c) → NamedAs d xs c nm → nm ≠ asciiText "char" →
      ObjectText k d xs mem p bs (asciiText "0->nullptr")
  | object {p r c nm n w bs bs' t} : p.In xs → isPointer p.e.decl.tag → NumBytes 8 n bs → n ≠ 0 → TypeOf xs p r → Resolves k xs r (some c) → NamedAs d xs c nm → nm ≠ asciiText "char" →
      SizeIs d xs c w → (isOpaque c.e.decl.tag ∨ StoredAt mem n bs' ∧ bs'.length = w) → ObjectText k d xs mem c bs' t →
      ObjectText k d xs mem p bs (addressText n ++ (asciiText "->" ++ t))
  | nameOnly {p nm bs} : p.In xs → isOpaque p.e.decl.tag → NamedAs d xs p nm → ObjectText k d xs mem p bs (asciiText "<unprintable type " ++ (nm ++ asciiText ">"))

/-! ### Where objects are -/

/-- An object is in memory, or in a register (or computed). -/
inductive ObjectPlace
  | memory (a : BitVec 64)
  | register (v : BitVec 64)

/-- What a location expression says (DWARF 5, 2.6.1). -/
inductive CodeSays (k : Knows) (m : Machine) : List Byte → ObjectPlace → Prop
  | memory {e a} : e.WF → k.exact m e → e.value m = some a → CodeSays k m e.encode (.memory a)
  | register {r v} : r < 32 → m.reg r = some v → CodeSays k m [BitVec.ofNat 8 (0x50 + r)] (.register v)
  | computed {e v} : k.computed → e.WF → k.exact m e → e.value m = some v → CodeSays k m (e.encode ++ [0x9f#8]) (.register v)

/-- The state of the process in a frame of a function: registers and memory, the address (in the object) of the instruction, and the sections with lists of locations. -/
structure FrameState where
  m : Machine
  mem : Mem
  pc : Nat
  loc : List Byte
  loclists : List Byte

/-- The section with the lists of locations of a unit, and the encoding of a list there. -/
def FrameState.lists (f : FrameState) (version : Nat) : List Byte := if 5 ≤ version then f.loclists else f.loc
def encodeLocs (version : Nat) (es : List LocEntry) : List Byte := if 5 ≤ version then encodeList5 es else encodeList4 es

/-- The list of locations an entry has (2, DW_AT_location), and the base address. -/
def LocListOf (k : Knows) (d : Sections) (xs : List DieUnit) (f : FrameState) (p : EntryRef) (base : Nat) (es : List LocEntry) : Prop :=
  ∃ uo x o e i a n rest, Inherits xs 2 p.uo p.o p.e (some (uo, x, o, e, i)) ∧ e.decl.attrs[i]? = some a ∧ a.form = 0x17 ∧ AttrNumber d x e i n ∧ BaseAddress d x base ∧ x.addrSize = 8 ∧
    FitsAt f.m.reloc.toNat base es ∧ k.listed x.version base es ∧ (f.lists x.version).drop n = encodeLocs x.version es ++ rest

/-- The expression for the location of an entry: the one it has, or the one in its list for the instruction. -/
inductive LocationCode (k : Knows) (d : Sections) (xs : List DieUnit) (f : FrameState) (p : EntryRef) : List Byte → Prop
  | expression {uo x o e i a code} : Inherits xs 2 p.uo p.o p.e (some (uo, x, o, e, i)) → e.decl.attrs[i]? = some a → e.vals[i]? = some (.block code) →
      a.form = 0x0a ∨ a.form = 0x09 ∨ a.form = 0x18 → LocationCode k d xs f p code
  | listed {base es code} : LocListOf k d xs f p base es → locate f.pc base es = some code → LocationCode k d xs f p code

/-! ### Arguments -/

/-- The bytes of an object of this type at this place; of those that only the name is shown of it may be any. -/
inductive ObjectBytes (k : Knows) (mem : Mem) (w : Nat) (nameOnly : Bool) : ObjectPlace → List Byte → Prop
  | memory {a bs} : a ≠ 0 → nameOnly ∨ StoredAt mem a.toNat bs ∧ bs.length = w → ObjectBytes k mem w nameOnly (.memory a) bs
  | register {v bs} : k.held w v → bs = (leBytes 8 v.toNat).take w → ObjectBytes k mem w nameOnly (.register v) bs

/-- The text for an argument: its name and, if it is known, its value. -/
inductive ArgText (k : Knows) (d : Sections) (xs : List DieUnit) (f : FrameState) (p : EntryRef) : List Byte → Prop
  | untyped {nm} : NamedAs d xs p nm → TypeOf xs p none → ArgText k d xs f p nm
  | object {nm r q w code pl bs t} : NamedAs d xs p nm → TypeOf xs p (some r) → LocationCode k d xs f p code → CodeSays k f.m code pl → Resolves k xs (some r) (some q) →
      SizeIs d xs q w → ObjectBytes k f.mem w (isOpaque q.e.decl.tag) pl bs → ObjectText k d xs f.mem q bs t → ArgText k d xs f p (nm ++ (asciiText "=" ++ t))
  | constant {nm r uo x o e i a v z} : NamedAs d xs p nm → TypeOf xs p (some r) → Lacks xs p 2 → Inherits xs 0x1c p.uo p.o p.e (some (uo, x, o, e, i)) → e.decl.attrs[i]? = some a →
      e.vals[i]? = some v → HasInt x a v z → ArgText k d xs f p (nm ++ (asciiText "=" ++ decimalText z))
  | unknown {nm r} : NamedAs d xs p nm → TypeOf xs p (some r) → Lacks xs p 2 → Lacks xs p 0x1c → ArgText k d xs f p nm

/-- Of each of these. -/
inductive ArgTexts (k : Knows) (d : Sections) (xs : List DieUnit) (f : FrameState) : List EntryRef → List (List Byte) → Prop
  | nil : ArgTexts k d xs f [] []
  | cons {p ps t ts} : ArgText k d xs f p t → ArgTexts k d xs f ps ts → ArgTexts k d xs f (p :: ps) (t :: ts)

/-- The entries of a list, without those below. -/
def Forest.tops {α : Type} : Forest α → List α
  | .done => []
  | .leaf a r => a :: r.tops
  | .node a _ r => a :: r.tops

/-- The parameters (tag 5) among the children of a function. -/
def parameters (uo : Nat) (x : DieUnit) (F : Forest (Nat × DieEntry)) : List EntryRef := (F.tops.filter (fun a => a.2.decl.tag = 5)).map (fun a => ⟨uo, x, a.1, a.2⟩)

/-- The texts, with commas between them. -/
def argumentText (ts : List (List Byte)) : List Byte := (asciiText ", ").intercalate ts

end Pstack.Spec
