import Verif.Spec.Cfi
/-
Line-number programs (DWARF 6.2): instructions, their encoding, and the rows they denote. Independent of the interpreter.
-/
namespace Pstack.Spec

/-- The parameters of a table's header a program depends on. -/
structure LineParams where
  minInsn : Nat
  maxOps : Nat
  lineBase : Int
  lineRange : Nat
  opcodeBase : Nat
  defaultIsStmt : Bool
  addressSize : Nat

/-- The registers of the line-number state machine (6.2.2); also a row of the table. -/
structure LineRow where
  address : Nat
  opIndex : Nat
  file : Nat
  line : Int
  column : Nat
  isStmt : Bool
  basicBlock : Bool
  endSequence : Bool
  prologueEnd : Bool
  epilogueBegin : Bool
  isa : Nat
  discriminator : Nat

/-- At the start of a sequence. -/
def LineRow.init (p : LineParams) : LineRow := ⟨0, 0, 1, 1, 0, p.defaultIsStmt, false, false, false, false, 0, 0⟩

inductive LineOp where
  | special (op : Nat)
  | copy
  | advancePc (n : Nat)
  | advanceLine (n : Int)
  | setFile (n : Nat)
  | setColumn (n : Nat)
  | negateStmt
  | setBasicBlock
  | constAddPc
  | fixedAdvancePc (n : Nat)
  | setPrologueEnd
  | setEpilogueBegin
  | setIsa (n : Nat)
  | endSequence
  | setAddress (a : Nat)
  | setDiscriminator (n : Nat)
  | unknownStandard (op : Nat) (args : List Nat)
  | unknownExtended (code : Nat) (data : List Byte)

/-- "Operation advance" (6.2.5.1). -/
def LineRow.advance (p : LineParams) (s : LineRow) (n : Nat) : LineRow :=
  { s with address := s.address + p.minInsn * ((s.opIndex + n) / p.maxOps), opIndex := (s.opIndex + n) % p.maxOps }

/-- What the registers become once a row has been appended. -/
def LineRow.afterRow (s : LineRow) : LineRow :=
  { s with discriminator := 0, basicBlock := false, prologueEnd := false, epilogueBegin := false }

/-- The effect of an instruction (6.2.5): the registers, and the row appended if any. -/
def LineOp.step (p : LineParams) (s : LineRow) : LineOp → LineRow × List LineRow
  | .special op =>
      let adj := op - p.opcodeBase
      let s := s.advance p (adj / p.lineRange)
      let s := { s with line := s.line + (p.lineBase + (adj % p.lineRange : Nat)) }
      (s.afterRow, [s])
  | .copy => (s.afterRow, [s])
  | .advancePc n => (s.advance p n, [])
  | .advanceLine n => ({ s with line := s.line + n }, [])
  | .setFile n => ({ s with file := n }, [])
  | .setColumn n => ({ s with column := n }, [])
  | .negateStmt => ({ s with isStmt := !s.isStmt }, [])
  | .setBasicBlock => ({ s with basicBlock := true }, [])
  | .constAddPc => (s.advance p ((255 - p.opcodeBase) / p.lineRange), [])
  | .fixedAdvancePc n => ({ s with address := s.address + n, opIndex := 0 }, [])
  | .setPrologueEnd => ({ s with prologueEnd := true }, [])
  | .setEpilogueBegin => ({ s with epilogueBegin := true }, [])
  | .setIsa n => ({ s with isa := n }, [])
  | .endSequence => (LineRow.init p, [{ s with endSequence := true }])
  | .setAddress a => ({ s with address := a, opIndex := 0 }, [])
  | .setDiscriminator n => ({ s with discriminator := n }, [])
  | .unknownStandard .. => (s, [])
  | .unknownExtended .. => (s, [])

/-- The rows of a program, from given registers. -/
def lineRows (p : LineParams) : LineRow → List LineOp → List LineRow
  | _, [] => []
  | s, o :: ops => (o.step p s).2 ++ lineRows p (o.step p s).1 ops

/-- The encoding of an instruction (6.2.5, 7.22). -/
def LineOp.encode (p : LineParams) : LineOp → List Byte
  | .special op => [BitVec.ofNat 8 op]
  | .copy => [1#8]
  | .advancePc n => 2#8 :: encodeU n
  | .advanceLine n => 3#8 :: encodeS n
  | .setFile n => 4#8 :: encodeU n
  | .setColumn n => 5#8 :: encodeU n
  | .negateStmt => [6#8]
  | .setBasicBlock => [7#8]
  | .constAddPc => [8#8]
  | .fixedAdvancePc n => 9#8 :: leBytes 2 n
  | .setPrologueEnd => [10#8]
  | .setEpilogueBegin => [11#8]
  | .setIsa n => 12#8 :: encodeU n
  | .endSequence => [0#8, 1#8, 1#8]
  | .setAddress a => 0#8 :: (encodeU (1 + p.addressSize) ++ 2#8 :: leBytes p.addressSize a)
  | .setDiscriminator n => 0#8 :: (encodeU (1 + (encodeU n).length) ++ 4#8 :: encodeU n)
  | .unknownStandard op args => BitVec.ofNat 8 op :: (args.map encodeU).flatten
  | .unknownExtended code data => 0#8 :: (encodeU (1 + data.length) ++ BitVec.ofNat 8 code :: data)

/-- The number of a standard instruction. -/
def LineOp.number : LineOp → Nat
  | .copy => 1 | .advancePc _ => 2 | .advanceLine _ => 3 | .setFile _ => 4 | .setColumn _ => 5 | .negateStmt => 6
  | .setBasicBlock => 7 | .constAddPc => 8 | .fixedAdvancePc _ => 9 | .setPrologueEnd => 10 | .setEpilogueBegin => 11
  | .setIsa _ => 12
  | _ => 0

/-- Operands fit their fields, files exist, and the table knows the instruction. -/
def LineOp.WF (p : LineParams) (nfiles : Nat) : LineOp → Prop
  | .special op => p.opcodeBase ≤ op ∧ op < 256
  | .advancePc n => 2 < p.opcodeBase ∧ n < 2 ^ 64
  | .advanceLine n => 3 < p.opcodeBase ∧ -2 ^ 63 ≤ n ∧ n < 2 ^ 63
  | .setFile n => 4 < p.opcodeBase ∧ n < nfiles ∧ n < 2 ^ 64
  | .setColumn n => 5 < p.opcodeBase ∧ n < 2 ^ 64
  | .fixedAdvancePc n => 9 < p.opcodeBase ∧ n < 2 ^ 16
  | .setIsa n => 12 < p.opcodeBase ∧ n < 2 ^ 64
  | .setAddress a => a < 256 ^ p.addressSize
  | .setDiscriminator n => n < 2 ^ 64
  | .unknownStandard op args => 12 < op ∧ op < p.opcodeBase ∧ ∀ a ∈ args, a < 2 ^ 64
  | .unknownExtended code _ => code ≠ 1 ∧ code ≠ 2 ∧ code ≠ 4 ∧ code < 256
  | o => o.number < p.opcodeBase

def LineParams.WF (p : LineParams) : Prop :=
  p.minInsn < 256 ∧ p.maxOps < 256 ∧ -128 ≤ p.lineBase ∧ p.lineBase < 128 ∧ 0 < p.lineRange ∧ p.lineRange < 256 ∧
  1 ≤ p.opcodeBase ∧ p.opcodeBase < 256 ∧ p.addressSize ≤ 8

/-! ### The table -/

/-- A source file: name and number of its directory. -/
structure SourceFile where
  name : List Byte
  dir : Nat

/-- A file entry before version 5 also has a time and a length. -/
structure FileEntry4 where
  file : SourceFile
  mtime : Nat
  length : Nat

/-- The kinds of field in the tables of version 5: the path as a string, or as the position of a string in .debug_line_str or
.debug_str; the directory number in one of three forms; the checksum. -/
inductive Field5 | path | pathLineStr | pathStr | dirU | dir1 | dir2 | md5

/-- Content type and form (7.22, 7.5.6). -/
def Field5.code : Field5 → Nat × Nat
  | .path => (1, 0x08) | .pathLineStr => (1, 0x1f) | .pathStr => (1, 0x0e)
  | .dirU => (2, 0x0f) | .dir1 => (2, 0x0b) | .dir2 => (2, 0x05) | .md5 => (5, 0x1e)

def Field5.isPath : Field5 → Bool
  | .path | .pathLineStr | .pathStr => true
  | _ => false

def Field5.isDir : Field5 → Bool
  | .dirU | .dir1 | .dir2 => true
  | _ => false

/-- An entry: what it describes, where its name is in the string sections, and its checksum. -/
structure Entry5 where
  file : SourceFile
  namePos : Nat
  md5 : List Byte

/-- The bytes of a field; `w` is the size of offsets in the table. -/
def Field5.encode (w : Nat) (e : Entry5) : Field5 → List Byte
  | .path => e.file.name ++ [0#8]
  | .pathLineStr => leBytes w e.namePos
  | .pathStr => leBytes w e.namePos
  | .dirU => encodeU e.file.dir
  | .dir1 => leBytes 1 e.file.dir
  | .dir2 => leBytes 2 e.file.dir
  | .md5 => e.md5

/-- The value fits the field; a name referred to is in the section. -/
def Field5.Fits (lineStr str : List Byte) (w : Nat) (e : Entry5) : Field5 → Prop
  | .path => True
  | .pathLineStr => e.namePos < 256 ^ w ∧ ∃ rest, lineStr.drop e.namePos = e.file.name ++ 0#8 :: rest
  | .pathStr => e.namePos < 256 ^ w ∧ ∃ rest, str.drop e.namePos = e.file.name ++ 0#8 :: rest
  | .dirU => e.file.dir < 2 ^ 32
  | .dir1 => e.file.dir < 2 ^ 8
  | .dir2 => e.file.dir < 2 ^ 16
  | .md5 => e.md5.length = 16

inductive LineTables
  | v4 (dirs : List (List Byte)) (files : List FileEntry4)
  | v5 (segSize : Byte) (dirFormat : List Field5) (dirs : List Entry5) (fileFormat : List Field5) (files : List Entry5)

/-- A table: version, whether the 64-bit format is used, parameters, numbers of operands of the standard instructions, directories
and files, any further header bytes, the program. -/
structure LineTable where
  version : Nat
  fmt64 : Bool
  params : LineParams
  opLens : List Byte
  tables : LineTables
  pad : List Byte
  prog : List LineOp

def LineTable.width (t : LineTable) : Nat := if t.fmt64 then 8 else 4

def formatBytes (fs : List Field5) : List Byte :=
  leBytes 1 fs.length ++ (fs.map (fun f => encodeU f.code.1 ++ encodeU f.code.2)).flatten

def entryBytes (w : Nat) (fs : List Field5) (e : Entry5) : List Byte := (fs.map (Field5.encode w e)).flatten

def file4Bytes (f : FileEntry4) : List Byte :=
  f.file.name ++ [0#8] ++ encodeU f.file.dir ++ encodeU f.mtime ++ encodeU f.length

def LineTables.encode (w : Nat) : LineTables → List Byte
  | .v4 dirs files => (dirs.map (fun s => s ++ [0#8])).flatten ++ [0#8] ++ (files.map file4Bytes).flatten ++ [0#8]
  | .v5 _ df ds ff fs => formatBytes df ++ encodeU ds.length ++ (ds.map (entryBytes w df)).flatten ++
      (formatBytes ff ++ encodeU fs.length ++ (fs.map (entryBytes w ff)).flatten)

/-- From `minimum_instruction_length` to the end of the header. -/
def LineTable.rest (t : LineTable) : List Byte :=
  leBytes 1 t.params.minInsn ++ (if t.version ≥ 4 then leBytes 1 t.params.maxOps else []) ++
  [if t.params.defaultIsStmt then 1#8 else 0#8] ++ [BitVec.ofInt 8 t.params.lineBase] ++ leBytes 1 t.params.lineRange ++
  leBytes 1 t.params.opcodeBase ++ t.opLens ++ t.tables.encode t.width ++ t.pad

def LineTable.progBytes (t : LineTable) : List Byte := (t.prog.map (LineOp.encode t.params)).flatten

/-- From the version to the end. -/
def LineTable.body (t : LineTable) : List Byte :=
  leBytes 2 t.version ++
  (match t.tables with
    | .v4 .. => []
    | .v5 seg .. => leBytes 1 t.params.addressSize ++ [seg]) ++
  leBytes t.width t.rest.length ++ t.rest ++ t.progBytes

def LineTable.encode (t : LineTable) : List Byte :=
  (if t.fmt64 then leBytes 4 0xffffffff ++ leBytes 8 t.body.length else leBytes 4 t.body.length) ++ t.body

/-- Directories, by number: before version 5, number 0 is the directory of the compilation, written ".". -/
def LineTables.dirNames : LineTables → List (List Byte)
  | .v4 dirs _ => [0x2e#8] :: dirs
  | .v5 _ _ ds _ _ => ds.map (·.file.name)

/-- Files, by number: before version 5 numbers start at 1; the entry for 0 is left to the reader. -/
def LineTables.sourceFiles : LineTables → List SourceFile
  | .v4 _ files => files.map (·.file)
  | .v5 _ _ _ ff fs => fs.map (fun e => ⟨e.file.name, if ff.any Field5.isDir then e.file.dir else 0⟩)

/-- The file with a number: before version 5 numbers start at 1. -/
def LineTables.file : LineTables → Nat → Option SourceFile
  | .v4 .., 0 => none
  | .v4 dirs files, n + 1 => (LineTables.v4 dirs files).sourceFiles[n]?
  | .v5 seg df ds ff fs, n => (LineTables.v5 seg df ds ff fs).sourceFiles[n]?

/-- One more than the greatest number of a file. -/
def LineTables.fileLimit : LineTables → Nat
  | .v4 _ files => files.length + 1
  | .v5 _ _ _ _ fs => fs.length

/-- Row `i` covers the address: it begins a stretch of its sequence that reaches up to the next row. -/
def RowCovers (rows : List LineRow) (a i : Nat) : Prop :=
  ∃ r n, rows[i]? = some r ∧ rows[i + 1]? = some n ∧ r.endSequence = false ∧ r.address ≤ a ∧ a < n.address

/-- Names in the tables. -/
def GoodName (s : List Byte) : Prop := ∀ b ∈ s, b ≠ 0#8

def LineTables.WF (lineStr str : List Byte) (w : Nat) : LineTables → Prop
  | .v4 dirs files => (∀ s ∈ dirs, s ≠ [] ∧ GoodName s) ∧
      ∀ f ∈ files, f.file.name ≠ [] ∧ GoodName f.file.name ∧ f.file.dir < 2 ^ 32 ∧ f.mtime < 2 ^ 64 ∧ f.length < 2 ^ 64
  | .v5 _ df ds ff fs => df.length < 256 ∧ ff.length < 256 ∧ ds.length < 2 ^ 31 ∧ fs.length < 2 ^ 64 ∧
      df.any Field5.isPath = true ∧ df.any Field5.isDir = false ∧ ff.any Field5.isPath = true ∧
      (∀ e ∈ ds, e.file.name ≠ [] ∧ GoodName e.file.name ∧ ∀ f ∈ df, f.Fits lineStr str w e) ∧
      (∀ e ∈ fs, GoodName e.file.name ∧ ∀ f ∈ ff, f.Fits lineStr str w e)

structure LineTable.WF (lineStr str : List Byte) (t : LineTable) : Prop where
  version : 2 ≤ t.version ∧ t.version ≤ 5
  kind : (∃ a b, t.tables = .v4 a b) ↔ t.version < 5
  v2 : t.version = 2 → t.fmt64 = false
  params : t.params.WF
  addr8 : t.version < 5 → t.params.addressSize = 8
  oneOp : t.version < 4 → t.params.maxOps = 1
  opLens : t.opLens.length = t.params.opcodeBase - 1
  tables : t.tables.WF lineStr str t.width

end Pstack.Spec
