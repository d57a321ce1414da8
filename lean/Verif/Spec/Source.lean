import Verif.Spec.StackText
import Verif.Spec.Lookup
import Verif.Spec.FindEntry
/-
The line and the function of an address: of the units, the one that has the address; of the rows of its line table, the one that covers the address; of its entries, the function that has it.
-/
namespace Pstack.Spec
open Pstack.Die

/-- The unit `x`, which is at `uo`, has the address. Left out are ranges that a root has in a list, for addresses that are smaller than the range is long (`C57_not_low`). -/
def UnitAt (d : Sections) (xs : List DieUnit) (sets : List ArangeSet) (addr uo : Nat) (x : DieUnit) : Prop :=
  (uo, x) ∈ placeUnits 0 xs ∧ ∃ lo hi, UnitHas d xs sets uo lo hi ∧ lo ≤ addr ∧ addr < hi ∧ (¬ListRange d xs uo lo hi ∨ hi - lo ≤ addr)

/-- No unit has the address, and none has a list of ranges (`C57_not_gap`). -/
def NoUnitAt (d : Sections) (xs : List DieUnit) (sets : List ArangeSet) (addr : Nat) : Prop :=
  (∀ uo lo hi, ¬ListRange d xs uo lo hi) ∧ ∀ uo lo hi, UnitHas d xs sets uo lo hi → ¬(lo ≤ addr ∧ addr < hi)

/-- The root of a unit. -/
def DieUnit.rootAt (x : DieUnit) (uo : Nat) : Nat × DieEntry := (uo + x.rootPos, x.tree.root)

/-- The rows of a line table. -/
def LineTable.rows (t : LineTable) : List LineRow := lineRows t.params (LineRow.init t.params) t.prog

/-- The last sequence is ended (`C28_not_ended`), and addresses are less than 2^64. -/
def LineTable.Ended (t : LineTable) : Prop := (∀ r ∈ t.rows, r.address < 2 ^ 64) ∧ ∀ r, t.rows.getLast? = some r → r.endSequence

/-- The line of an address is that of the first row that covers it. In detail, names of files are shown with their directories. -/
def LineFor (t : LineTable) (detail : Bool) (addr : Nat) (p : SourceLine) : Prop :=
  ∃ i r f dir, RowCovers t.rows addr i ∧ (∀ j, j < i → ¬RowCovers t.rows addr j) ∧ t.rows[i]? = some r ∧ t.tables.file r.file = some f ∧ t.tables.dirNames[f.dir]? = some dir ∧
    p.file = (if detail then dir ++ (asciiText "/" ++ f.name) else f.name) ∧ p.line = r.line ∧ -(2 ^ 31) ≤ r.line ∧ r.line < 2 ^ 31

/-- The line of an address. `op` says what is understood of line tables. -/
inductive SourceOf (op : LineParams → LineOp → Prop) (d : Sections) (xs : List DieUnit) (sets : List ArangeSet) (line : Option (List Byte)) (detail : Bool) (addr : Nat) : Option SourceLine → Prop
  | row {uo x sec t p} : UnitAt d xs sets addr uo x → Told d xs uo x addr (x.rootAt uo) → ¬SaysOut d xs uo x addr (x.rootAt uo) → line = some sec → LinesOf d sec x t → t.Plain op → t.Ended →
      LineFor t detail addr p → SourceOf op d xs sets line detail addr (some p)
  | noRow {uo x sec t} : UnitAt d xs sets addr uo x → Told d xs uo x addr (x.rootAt uo) → ¬SaysOut d xs uo x addr (x.rootAt uo) → line = some sec → LinesOf d sec x t → t.Plain op → t.Ended →
      (∀ i, ¬RowCovers t.rows addr i) → SourceOf op d xs sets line detail addr none
  | outside {uo x} : UnitAt d xs sets addr uo x → Told d xs uo x addr (x.rootAt uo) → SaysOut d xs uo x addr (x.rootAt uo) → SourceOf op d xs sets line detail addr none
  | noTable {uo x} : UnitAt d xs sets addr uo x → Told d xs uo x addr (x.rootAt uo) → x.tree.root.find 0x10 = none ∨ ¬isUnitTag x.tree.root.decl.tag → SourceOf op d xs sets line detail addr none
  | noSection {uo x i a v z} : UnitAt d xs sets addr uo x → Told d xs uo x addr (x.rootAt uo) → line = none → x.tree.root.find 0x10 = some i → x.tree.root.decl.attrs[i]? = some a →
      x.tree.root.vals[i]? = some v → HasInt x a v z → SourceOf op d xs sets line detail addr none
  | nowhere : NoUnitAt d xs sets addr → SourceOf op d xs sets line detail addr none

/-- The function of an address: in the unit that has it, the first function that has it and is not below an entry that does not. -/
inductive FunctionOf (d : Sections) (xs : List DieUnit) (sets : List ArangeSet) (addr : Nat) : Option EntryRef → Prop
  | found {uo x F a} : UnitAt d xs sets addr uo x → (x.placed uo).KidsOf (x.rootAt uo) F → (∀ b ∈ x.rootAt uo :: F.all, Told d xs uo x addr b) →
      HitFrom d xs uo x addr 0x2e true (x.rootAt uo) F a → (∀ b, HitFrom d xs uo x addr 0x2e true (x.rootAt uo) F b → a.1 ≤ b.1) → FunctionOf d xs sets addr (some ⟨uo, x, a.1, a.2⟩)
  | missing {uo x F} : UnitAt d xs sets addr uo x → (x.placed uo).KidsOf (x.rootAt uo) F → (∀ b ∈ x.rootAt uo :: F.all, Told d xs uo x addr b) →
      (∀ a, ¬HitFrom d xs uo x addr 0x2e true (x.rootAt uo) F a) → FunctionOf d xs sets addr none
  | nowhere : NoUnitAt d xs sets addr → FunctionOf d xs sets addr none

/-- The function and the line of a frame in an object are those of its address. -/
def FrameFacts.Located (op : LineParams → LineOp → Prop) (d : Sections) (xs : List DieUnit) (sets : List ArangeSet) (line : Option (List Byte)) (w : ShowWhat) (f : FrameFacts) : Prop :=
  f.object ≠ none → FunctionOf d xs sets f.addr.toNat f.fn ∧ (w.sources → SourceOf op d xs sets line w.detail f.addr.toNat f.source)

end Pstack.Spec
