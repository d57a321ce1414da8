import Verif.Model.StackUsers
import Verif.Spec.CfaMeaning
import Verif.Spec.Elf
import Verif.Spec.Args
/-
How much stack functions use, by their call frame programs.
-/
namespace Pstack.Spec
open Pstack.Dwarf Pstack.Elf Pstack.StackUsers

/-- The row has this offset: the CFA is this far from its register, or a register is saved this far from the CFA. -/
def RowOffset (row : Row) (x : Int) : Prop := (∃ r, row.cfa = .regOff r x) ∨ ∃ r, row.rule r = .offset x

/-- The row is in force at some point of the program: at its start, or after some of its instructions. -/
inductive InForce (k : Factors) (ini : Row) : TabState → List Insn → Row → Prop
  | now (s : TabState) (is : List Insn) : InForce k ini s is s.row
  | later {s s' : TabState} {i : Insn} {is : List Insn} {row : Row} : s.step k ini i = some s' → InForce k ini s' is row → InForce k ini s (i :: is) row

/-- The largest offset, or 0 if none is more. -/
structure Largest (k : Factors) (ini : Row) (s : TabState) (is : List Insn) (m : Int) : Prop where
  nonneg : 0 ≤ m
  above : ∀ row x, InForce k ini s is row → RowOffset row x → x ≤ m
  reached : m = 0 ∨ ∃ row, InForce k ini s is row ∧ RowOffset row m

/-- The factors of an entry. -/
def factorsOf (f : FDE) : Factors := ⟨f.cie.codeAlign.toNat, f.cie.dataAlign.toInt⟩

/-- The instructions of the entry's common entry encode `ci`, which gives the row `ini`, and its own encode `fi`. -/
structure ProgramOf (d : List Byte) (f : FDE) (ci fi : List Insn) (ini : Row) : Prop where
  size : d.length < W64
  commonFits : ∀ i ∈ ci, i.WF
  ownFits : ∀ i ∈ fi, i.WF
  common : ∃ rest, d.drop f.cie.instructions = encodeInsns ci ++ rest
  commonEnd : f.cie.endOff = f.cie.instructions + (encodeInsns ci).length
  own : ∃ rest, d.drop f.instructions = encodeInsns fi ++ rest
  ownEnd : f.endOff = f.instructions + (encodeInsns fi).length
  within : f.instructions ≤ d.length ∧ f.cie.instructions ≤ d.length
  initial : finalRow (factorsOf f) Row.init ⟨0, Row.init, []⟩ ci = some ini

/-- The figures of the program of an entry, for code at `start`: the largest offset, `m`, and the location of the last row of the table, `last`, which is not the last address there is. -/
def Figures (d : List Byte) (f : FDE) (start : Nat) (m : Int) (last : Nat) : Prop :=
  ∃ ci fi ini t, ProgramOf d f ci fi ini ∧ rows (factorsOf f) ini ⟨start, ini, []⟩ fi = some t ∧
    (∀ row x, InForce (factorsOf f) ini ⟨start, ini, []⟩ fi row → RowOffset row x → -2 ^ 63 ≤ x ∧ x < 2 ^ 63) ∧
    Largest (factorsOf f) ini ⟨start, ini, []⟩ fi m ∧ t.getLast?.map Prod.fst = some last ∧ last < 2 ^ 64 - 1

/-- The entry for an address. -/
def EntryFor (img : Image) (a : Nat) (d : List Byte) (f : FDE) : Prop := ∃ find, img.cfi = some (d, find) ∧ find a = .ok (some f)

/-- The line of a function: the largest offset, how far the last row is, and one more, the size of the symbol, and its name, with tabs between them. -/
def usersLine (m : Int) (extent size : Nat) (name : List Byte) : List Byte :=
  decimalText m ++ [9#8] ++ decimalText extent ++ [9#8] ++ decimalText size ++ [9#8] ++ name ++ [10#8]

/-- The function is to be listed: it has a size, it is in a loadable segment (1) that can be executed (bit 0), and it is one of those asked for, if any are. -/
def Listed (file : List Phdr) (t : DynTable) (funcs : List (List Byte)) (s : Sym) : Prop :=
  s.size ≠ 0 ∧ (∃ p ∈ file, p.type = 1 ∧ InSegment p s.value ∧ p.flags.testBit 0 = true) ∧ (funcs = [] ∨ t.nameOf s ∈ funcs)

/-- The text for symbols: the lines of those to be listed, in their order. Each has an entry of its own, which starts where it does. -/
inductive UsersText (img : Image) (file : List Phdr) (t : DynTable) (funcs : List (List Byte)) : List Sym → List Byte → Prop
  | none : UsersText img file t funcs [] []
  | other {s l text} : ¬Listed file t funcs s → UsersText img file t funcs l text → UsersText img file t funcs (s :: l) text
  | user {s l text d f m last} : Listed file t funcs s → EntryFor img s.value d f → f.iloc.toNat = s.value → Figures d f s.value m last → UsersText img file t funcs l text →
      UsersText img file t funcs (s :: l) (usersLine m (last - s.value + 1) s.size (t.nameOf s) ++ text)

end Pstack.Spec
