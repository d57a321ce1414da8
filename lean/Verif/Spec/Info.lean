import Verif.Spec.DieMeaning
import Verif.Model.FindEntry
/-
The units of a section, the attributes of an entry by name and by reference to other entries (DWARF 5, 2.2, 3.3.8.2, 2.13.2), and programs that
visit entries of several units.
-/
namespace Pstack.Spec
open Pstack.Die

/-- .debug_info: the units, one after the other. -/
def encodeUnits (xs : List DieUnit) : List Byte := (xs.map DieUnit.encode).flatten

/-- Each unit with where it is. -/
def placeUnits : Nat → List DieUnit → List (Nat × DieUnit)
  | _, [] => []
  | off, x :: xs => (off, x) :: placeUnits (off + x.encode.length) xs

/-- The sections have these units, and the library can read them. -/
structure InfoOk (d : Sections) (xs : List DieUnit) : Prop where
  info : d.info = encodeUnits xs
  units : ∀ x ∈ xs, x.WF ∧ UnitReadable x
  tables : ∀ x ∈ xs, ∃ rest, d.abbr.drop x.abbrevPos = encodeDecls x.decls ++ rest
  fit : d.info.length < 2 ^ 64 ∧ d.abbr.length < 2 ^ 64

/-- In unit `x`, which is at `uo`, there is the entry `e`, at `o`. -/
def EntryIn (xs : List DieUnit) (uo : Nat) (x : DieUnit) (o : Nat) (e : DieEntry) : Prop :=
  (uo, x) ∈ placeUnits 0 xs ∧ (o, e) ∈ (x.placed uo).all

/-- The place of the first attribute of that name. -/
def DieEntry.find (e : DieEntry) (name : Nat) : Option Nat := e.decl.attrs.findIdx? (fun a => a.name = name)

/-- The value of an attribute is a reference to what is at `o`. `uo` is the offset of the unit: references within a unit are from there. -/
def RefTo (uo : Nat) (a : AttrDecl) (v : AttrVal) (o : Nat) : Prop :=
  ∃ n, v = .num n ∧ ((IsLocalRef a.form ∧ o = uo + n) ∨ (a.form = 0x10 ∧ o = n))

/-- By the (first) attribute of that name the entry refers to what is at `o`. -/
def RefersTo (uo : Nat) (e : DieEntry) (name o : Nat) : Prop :=
  ∃ i a v, e.find name = some i ∧ e.decl.attrs[i]? = some a ∧ e.vals[i]? = some v ∧ RefTo uo a v o

/-- All references lead to entries. (A sibling attribute, 1, may also lead to the end of a list.) -/
def RefsOk (xs : List DieUnit) : Prop :=
  ∀ uo x o e, EntryIn xs uo x o e → ∀ (i : Nat) a v o', e.decl.attrs[i]? = some a → e.vals[i]? = some v → a.name ≠ 1 → RefTo uo a v o' →
    ∃ uo' x' e', EntryIn xs uo' x' o' e'

/-- Where the attribute is found that an entry inherits: in the entry itself, or else in the entry it refers to as its abstract origin
(0x31), or if it has no abstract origin the one it refers to as its specification (0x47), and so on. `none`: nowhere. -/
inductive Inherits (xs : List DieUnit) (name : Nat) : Nat → Nat → DieEntry → Option (Nat × DieUnit × Nat × DieEntry × Nat) → Prop
  | own {uo x o e i} : EntryIn xs uo x o e → e.find name = some i → Inherits xs name uo o e (some (uo, x, o, e, i))
  | origin {uo o e uo' x' o' e' r} : e.find name = none → RefersTo uo e 0x31 o' → EntryIn xs uo' x' o' e' → o' ≠ o →
      Inherits xs name uo' o' e' r → Inherits xs name uo o e r
  | specification {uo o e uo' x' o' e' r} : e.find name = none → e.find 0x31 = none → RefersTo uo e 0x47 o' → EntryIn xs uo' x' o' e' → o' ≠ o →
      Inherits xs name uo' o' e' r → Inherits xs name uo o e r
  | nowhere {uo o e} : e.find name = none → e.find 0x31 = none → e.find 0x47 = none → Inherits xs name uo o e none

/-- The `DIE` `y` is the entry `e`, at `o` of the unit at `uo`. -/
def IsEntry (d : Sections) (xs : List DieUnit) (y : DIE) (uo : Nat) (x : DieUnit) (o : Nat) (e : DieEntry) : Prop :=
  openUnit d.info d.abbr uo = .ok y.unit ∧ y.h.off = o ∧ EntryIn xs uo x o e

/-- The attribute `a` is attribute number `i` of the entry, and its name, form and value are what the entry has. -/
def ShowsAttr (d : Sections) (s : IState) (a : Attr) (x : DieUnit) (e : DieEntry) (i : Nat) : Prop :=
  ∃ b v k w, e.decl.attrs[i]? = some b ∧ e.vals[i]? = some v ∧ formKind b.form = some k ∧
    a.name s = .ok b.name ∧ a.form s = .ok b.form ∧ a.value s = .ok w ∧ Means d.info x.sizes k v w

/-- What was found is what there is to find. -/
def Finds (d : Sections) (xs : List DieUnit) (s : IState) (r : Option (Nat × DieUnit × Nat × DieEntry × Nat)) (a : Option Attr) : Prop :=
  match r with
  | none => a = none
  | some (uo, x, o, e, i) => ∃ a', a = some a' ∧ a'.idx = i ∧ IsEntry d xs a'.die uo x o e ∧ ShowsAttr d s a' x e i

/-! ### Programs -/

/-- A program at work on a section: what the library remembers, and for each unit (by its offset) the `DIE`s and iterators the program has. -/
structure IClient where
  st : IState
  dies : Nat → List Handle
  iters : Nat → List (Handle × Handle)

/-- Its part in one unit. -/
def IClient.unit (c : IClient) (uo : Nat) : Client := ⟨c.st.st uo, c.dies uo, c.iters uo⟩

/-- Something done in one unit. -/
def IClient.within (c : IClient) (uo : Nat) (c' : Client) : IClient :=
  ⟨c.st.setSt uo c'.st, fun o => if o = uo then c'.dies else c.dies o, fun o => if o = uo then c'.iters else c.iters o⟩

/-- A `DIE` got. -/
def IClient.got (c : IClient) (y : DIE) (s : IState) : IClient :=
  ⟨s, fun o => if o = y.unit.offset then y.h :: c.dies o else c.dies o, c.iters⟩

/-- The program has this `DIE`. -/
def IClient.Holds (d : Sections) (c : IClient) (y : DIE) : Prop := openUnit d.info d.abbr y.unit.offset = .ok y.unit ∧ y.h ∈ c.dies y.unit.offset

/-- Something the program does: open a unit it knows (from an iterator over units or from .debug_aranges), visit entries of one unit in any of the
ways of `Did`, ask for attributes of entries, follow references, ask for the entry at an offset, convert the values of attributes, ask for the
ranges of an entry, whether an entry contains an address, and for the entry of an address, or drop what is remembered of a unit when it keeps no `DIE` of it. -/
inductive IDid (d : Sections) (xs : List DieUnit) : IClient → IClient → Prop
  | unit {c : IClient} {uo x u s} : (uo, x) ∈ placeUnits 0 xs → getUnit d uo c.st = .ok (u, s) → IDid d xs c ⟨s, c.dies, c.iters⟩
  | within {c : IClient} {uo x u c'} : (uo, x) ∈ placeUnits 0 xs → openUnit d.info d.abbr uo = .ok u → Did u (fun o => o ∈ (x.offsets uo).all) (c.unit uo) c' →
      c'.st.epoch = (c.st.st uo).epoch → IDid d xs c (c.within uo c')
  | attr {c : IClient} {y a s} {fuel name : Nat} {isLocal : Bool} : c.Holds d y → getAttr d fuel y name isLocal c.st = .ok (some a, s) → IDid d xs c (c.got a.die s)
  | noAttr {c : IClient} {y s} {fuel name : Nat} {isLocal : Bool} : c.Holds d y → getAttr d fuel y name isLocal c.st = .ok (none, s) → IDid d xs c ⟨s, c.dies, c.iters⟩
  | follow {c : IClient} {a n y s} : c.Holds d a.die → a.name c.st = .ok n → n ≠ 1 → toDIE d (some a) c.st = .ok (some y, s) → IDid d xs c (c.got y s)
  | find {c : IClient} {uo x o e y s} : EntryIn xs uo x o e → infoOffsetToDIE d o c.st = .ok (y, s) → IDid d xs c (c.got y s)
  | number {c : IClient} {a w s} {fuel : Nat} : c.Holds d a.die → toNum d fuel (some a) c.st = .ok (w, s) → IDid d xs c ⟨s, c.dies, c.iters⟩
  | string {c : IClient} {a w s} {fuel : Nat} : c.Holds d a.die → toStr d fuel (some a) c.st = .ok (w, s) → IDid d xs c ⟨s, c.dies, c.iters⟩
  | contains {c : IClient} {y addr r s} {fuel : Nat} : c.Holds d y → containsAddress d fuel y addr c.st = .ok (r, s) → IDid d xs c ⟨s, c.dies, c.iters⟩
  | ranges {c : IClient} {y l s} {fuel : Nat} : c.Holds d y → dieRanges d fuel y c.st = .ok (l, s) → IDid d xs c ⟨s, c.dies, c.iters⟩
  | entry {c : IClient} {y addr z s} {fuel t depth : Nat} {skip : Bool} : c.Holds d y → findEntry d fuel addr t depth y skip c.st = .ok (some z, s) → IDid d xs c (c.got z s)
  | noEntry {c : IClient} {y addr s} {fuel t depth : Nat} {skip : Bool} : c.Holds d y → findEntry d fuel addr t depth y skip c.st = .ok (none, s) → IDid d xs c ⟨s, c.dies, c.iters⟩
  | purge {c : IClient} {uo : Nat} : IDid d xs c ⟨(c.st.setSt uo (purge (c.st.st uo))).dropRanges uo, fun o => if o = uo then [] else c.dies o,
      fun o => if o = uo then [] else c.iters o⟩

/-- Any number of these, from the beginning. -/
inductive IHistory (d : Sections) (xs : List DieUnit) : IClient → Prop
  | start : IHistory d xs ⟨IState.empty, fun _ => [], fun _ => []⟩
  | step {a b : IClient} : IHistory d xs a → IDid d xs a b → IHistory d xs b

end Pstack.Spec
