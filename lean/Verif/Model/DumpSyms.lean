import Verif.Model.Elf
import Verif.Model.DumpCfa
/-
Model of dump.cc:684-690, 718-771, 819-826: the JSON text of the symbols and the relocations of a section.
-/
namespace Pstack.DumpSyms
open Pstack.Reader Pstack.Elf Pstack.DumpCfa

/-- `bindingNames`. dump.cc:724-741. -/
def bindingNames : List String :=
  ["STB_LOCAL", "STB_GLOBAL", "STB_WEAK", "unknown3", "unknown4", "unknown5", "unknown6", "unknown7", "unknown8", "unknown9",
   "unknowna", "unknownb", "unknownc", "STB_LOPROC", "STB_LOPROC + 1", "STB_HIPROC + 1"]

/-- `typeNames`. dump.cc:742-759. -/
def typeNames : List String :=
  ["STT_NOTYPE", "STT_OBJECT", "STT_FUNC", "STT_SECTION", "STT_FILE", "STT_5", "STT_6", "STT_7", "STT_8", "STT_9", "STT_A", "STT_B",
   "STT_C", "STT_LOPROC", "STT_LOPROC + 1", "STT_HIPROC"]

/-- An element of an array of names; undefined beyond its end. -/
def nameIn (names : List String) (i : Nat) : Res String :=
  match names[i]? with
  | some s => .ok s
  | none => .ub

/-- `operator<< (std::ostream &, const JSON<Elf::Sym, Elf::Section> &)`. The section of strings is that which the section of symbols
is linked to. dump.cc:760-771. -/
def symTree (t : Symtab) (s : Sym) : Res (Json.Tree (List Byte)) := do
  let name ← t.nameOf s
  let b ← nameIn bindingNames (s.info / 16)
  let ty ← nameIn typeNames (s.info % 16)
  return .obj true [(lit "name", .str name), (lit "value", .int s.value), (lit "size", .int s.size), (lit "info", .int s.info),
    (lit "binding", .str (lit b)), (lit "type", .str (lit ty)), (lit "other", .int s.other), (lit "shndx", .int s.shndx)]

def symTrees (t : Symtab) : List Sym → Res (List (Json.Tree (List Byte)))
  | [] => .ok []
  | s :: rest => do
      let x ← symTree t s
      let xs ← symTrees t rest
      return x :: xs

/-- The value of the field "symbols". The text is written symbol by symbol; here all are read before any is written, and an exception
gives no text. dump.cc:819-823. -/
def dumpSymbols (t : Symtab) : Res (List Char) := do
  let es ← t.entries
  let xs ← symTrees t es
  Json.print (.list xs)

/-- `Elf64_Rela`, 24 bytes. -/
structure Rela where
  offset : Nat
  info : Nat
  addend : Nat
  deriving DecidableEq

/-- An `Elf64_Rela` as laid out in memory. -/
def Rela.decode (bs : List Byte) : Rela := { offset := field bs 0 8, info := field bs 8 8, addend := field bs 16 8 }

/-- `operator <<(std::ostream &, const JSON<Elf::Rela> &)`. dump.cc:684-690. -/
def relaTree (r : Rela) : Json.Tree (List Byte) :=
  .obj true [(lit "r_offset", .int r.offset), (lit "r_info-sym", .int (r.info / 2 ^ 32 : Nat)),
    (lit "r_info-type", .int (r.info % 2 ^ 32 : Nat))]

/-- The value of the field "reloca". dump.cc:824-826. -/
def dumpRelocs (io : Rdr) : Res (List Char) := do
  let es ← readerArray io.read io.size 0 24 (1024 / 24)
  Json.print (.list (es.map (fun e => relaTree (Rela.decode e))))

end Pstack.DumpSyms
