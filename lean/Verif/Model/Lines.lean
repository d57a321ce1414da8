import Verif.Model.DwarfReader
/-
Model of the line-number tables: dwarf_lines.cc, the form readers of dwarf_reader.cc used by it, and Unit::sourceFromAddr
(dwarf_unit.cc). The section .debug_line is the byte list `d`.
-/
namespace Pstack.Lines
open Pstack.Reader Pstack.Dwarf

/-- Undefined behaviour. -/
def undef {α : Type} : Parse α := fun _ => .ub

/-- Something that does not move the cursor. -/
def lift {α : Type} (r : Res α) : Parse α := fun off => r >>= fun a => .ok (a, off)

/-- A class FileEntry; time and length are not used. dwarf.h:329-346. -/
structure FileEnt where
  name : List Byte
  dirindex : BitVec 32
  deriving Repr, DecidableEq

/-- class LineState. `file` is the index of the entry pointed at. dwarf.h:348-363. -/
structure LineState where
  file : Nat
  addr : BitVec 64
  line : BitVec 32
  column : BitVec 32
  isStmt : Bool
  basicBlock : Bool
  endSequence : Bool
  prologueEnd : Bool
  epilogueBegin : Bool
  isa : BitVec 32
  discriminator : BitVec 32
  deriving Repr, DecidableEq

/-- The header values the program depends on, and the file and directory tables. dwarf.h:374-378, dwarf_lines.cc:47-71. -/
structure LineHdr where
  addressSize : Nat
  minInsnLength : Byte
  defaultIsStmt : Bool
  lineBase : Byte
  lineRange : Byte
  opcodeBase : Byte
  directories : List (List Byte)
  files : List FileEnt
  deriving Repr, DecidableEq

/-- `LineState(LineInfo *)`: refers to `files[1]`, which must exist. dwarf_lines.cc:20-32. -/
def LineState.init (h : LineHdr) : Res LineState :=
  if 1 < h.files.length then
    .ok ⟨1, 0#64, 1#32, 0#32, h.defaultIsStmt, false, false, false, false, 0#32, 0#32⟩
  else .ub

/-- The effect of an opcode: the new state and the rows appended. -/
abbrev Eff := LineState × List LineState

/-- A special opcode; `c` is the byte less `opcode_base`. Division by a zero `line_range` is undefined. dwarf_lines.cc:152-160. -/
def special (h : LineHdr) (c : Nat) (s : LineState) : Parse Eff :=
  if h.lineRange = 0#8 then undef
  else
    let s := { s with
      addr := s.addr + BitVec.ofNat 64 (c / h.lineRange.toNat * h.minInsnLength.toNat),
      line := s.line + (BitVec.ofNat 32 (c % h.lineRange.toNat) + h.lineBase.signExtend 32) }
    pure ({ s with basicBlock := false }, [s])

/-- An extended opcode. dwarf_lines.cc:162-182. -/
def extended (d : List Byte) (h : LineHdr) (s : LineState) : Parse Eff := do
  let _ ← getuleb128 d
  let code ← getu8 d
  match code.toNat with
  | 1 => do
      let i ← lift (LineState.init h)
      pure (i, [{ s with endSequence := true }])
  | 2 => do
      let a ← getuint d h.addressSize
      pure ({ s with addr := a }, [])
  | 4 => do
      let n ← getuleb128 d
      pure ({ s with discriminator := n.setWidth 32 }, [])
  | _ => throwExc

/-- `addr += n`. -/
def advanceBy (s : LineState) (n : Nat) : LineState := { s with addr := s.addr + BitVec.ofNat 64 n }

/-- A standard opcode. A file index beyond the table is undefined; opcodes it does not know are rejected. dwarf_lines.cc:184-233. -/
def standard (d : List Byte) (h : LineHdr) (s : LineState) (c : Nat) : Parse Eff :=
  match c with
  | 1 => pure ({ s with basicBlock := false }, [s])
  | 2 => do
      let n ← getuleb128 d
      pure ({ s with addr := s.addr + n * h.minInsnLength.setWidth 64 }, [])
  | 3 => do
      let n ← getsleb128 d
      pure ({ s with line := s.line + n.setWidth 32 }, [])
  | 4 => do
      let n ← getuleb128 d
      if n.toNat < h.files.length then pure ({ s with file := n.toNat }, []) else undef
  | 5 => do
      let n ← getuleb128 d
      pure ({ s with column := n.setWidth 32 }, [])
  | 6 => pure ({ s with isStmt := !s.isStmt }, [])
  | 7 => pure ({ s with basicBlock := true }, [])
  | 8 =>
      if h.lineRange = 0#8 then undef
      else pure (advanceBy s ((255 - h.opcodeBase.toNat) / h.lineRange.toNat * h.minInsnLength.toNat), [])
  | 9 => do
      let n ← getu16 d
      pure (advanceBy s (n.toNat * h.minInsnLength.toNat), [])
  | 10 => pure ({ s with prologueEnd := true }, [])
  | 11 => pure ({ s with epilogueBegin := true }, [])
  | 12 => do
      let n ← getuleb128 d
      pure ({ s with isa := n.setWidth 32 }, [])
  | _ => throwExc

/-- One iteration of the loop. dwarf_lines.cc:149-235. -/
def lineOne (d : List Byte) (h : LineHdr) (s : LineState) : Parse Eff := do
  let c ← getu8 d
  if c.toNat ≥ h.opcodeBase.toNat then special h (c.toNat - h.opcodeBase.toNat) s
  else if c = 0#8 then extended d h s
  else standard d h s c.toNat

/-- The loop: the rows appended to `matrix`. Every iteration reads at least a byte, so `fuel` beyond the length of the section does
not bound it. dwarf_lines.cc:149-236. -/
def lineLoop (d : List Byte) (h : LineHdr) (endOff : Nat) : Nat → LineState → Nat → Res (List LineState)
  | 0, _, _ => .ub
  | fuel + 1, s, off =>
      if off < endOff then do
        let ((s, rows), off) ← lineOne d h s off
        let more ← lineLoop d h endOff fuel s off
        return rows ++ more
      else .ok []

/-! ### The header -/

/-- What the tables of version 5 refer to: `unit.dwarfLen`, the sections .debug_line_str and .debug_str, and `unit.strx`. The
sections are ranges of mapped files, as for `getstring`. -/
structure Env where
  dwarfLen : Nat
  lineStrings : List Byte
  strings : List Byte
  strx : Nat → Res (List Byte)

/-- `readFormString`. dwarf_reader.cc:24-46. -/
def readFormString (d : List Byte) (e : Env) (form : Nat) : Parse (List Byte) :=
  if form = 0x08 then getstring d
  else if form = 0x1f then do
    let off ← getuint d e.dwarfLen
    lift (memString e.lineStrings off.toNat)
  else if form = 0x0e then do
    let off ← getuint d e.dwarfLen
    lift (memString e.strings off.toNat)
  else if form = 0x1a then do
    let off ← getuleb128 d
    lift (e.strx off.toNat)
  else throwExc

/-- `readForm`. dwarf_reader.cc:5-22. -/
def readForm (d : List Byte) (e : Env) (form : Nat) : Parse Unit :=
  if form = 0x08 ∨ form = 0x1f ∨ form = 0x0e then do
    let _ ← readFormString d e form
    pure ()
  else if form = 0x1e then skip 16
  else throwExc

/-- `readFormUnsigned`. dwarf_reader.cc:48-63. -/
def readFormUnsigned (d : List Byte) (form : Nat) : Parse (BitVec 64) :=
  if form = 0x0f then getuleb128 d
  else if form = 0x0b then do
    let v ← getu8 d
    pure (v.setWidth 64)
  else if form = 0x05 then do
    let v ← getu16 d
    pure (v.setWidth 64)
  else if form = 0x06 then do
    let v ← getu32 d
    pure (v.setWidth 64)
  else throwExc

/-- `n` times. -/
def times {α : Type} (p : Parse α) : Nat → Parse (List α)
  | 0 => pure []
  | n + 1 => do
      let a ← p
      let more ← times p n
      pure (a :: more)

/-- `readEntryFormats`: pairs of content type and form, each cut to an enumeration's 32 bits. dwarf_lines.cc:5-17. -/
def readEntryFormats (d : List Byte) : Parse (List (Nat × Nat)) := do
  let count ← getu8 d
  times (do
    let t ← getuleb128 d
    let f ← getuleb128 d
    pure ((t.setWidth 32).toNat, (f.setWidth 32).toNat)) count.toNat

/-- An entry of the version 5 directory table: the last path in it. dwarf_lines.cc:79-92. -/
def dirEntry5 (d : List Byte) (e : Env) : List (Nat × Nat) → List Byte → Parse (List Byte)
  | [], path => pure path
  | (t, form) :: rest, path =>
      if t = 1 then do
        let path ← readFormString d e form
        dirEntry5 d e rest path
      else do
        readForm d e form
        dirEntry5 d e rest path

/-- An entry of the version 5 file table. dwarf_lines.cc:102-117. -/
def fileEntry5 (d : List Byte) (e : Env) : List (Nat × Nat) → FileEnt → Parse FileEnt
  | [], f => pure f
  | (t, form) :: rest, f =>
      if t = 1 then do
        let n ← readFormString d e form
        fileEntry5 d e rest { f with name := n }
      else if t = 2 then do
        let n ← readFormUnsigned d form
        fileEntry5 d e rest { f with dirindex := n.setWidth 32 }
      else do
        readForm d e form
        fileEntry5 d e rest f

/-- The version 5 tables. A directory without a name is left out. A count of directories above 2^31 (an `int` that turns negative)
is modelled as undefined. dwarf_lines.cc:74-119. -/
def tables5 (d : List Byte) (e : Env) : Parse (List (List Byte) × List FileEnt) := do
  let dirFormat ← readEntryFormats d
  let n ← getuleb128 d
  if (n.setWidth 32).toNat ≥ 2 ^ 31 then undef
  else do
    let dirs ← times (dirEntry5 d e dirFormat []) (n.setWidth 32).toNat
    let fileFormat ← readEntryFormats d
    let m ← getuleb128 d
    let files ← times (fileEntry5 d e fileFormat ⟨[], 0#32⟩) m.toNat
    pure (dirs.filter (· ≠ []), files)

/-- Strings up to an empty one. dwarf_lines.cc:122-127. -/
def dirs4 (d : List Byte) : Nat → Parse (List (List Byte))
  | 0 => undef
  | fuel + 1 => do
      let s ← getstring d
      if s = [] then pure []
      else do
        let more ← dirs4 d fuel
        pure (s :: more)

/-- `FileEntry(DWARFReader &)`. dwarf_lines.cc:246-252. -/
def fileEntry4 (d : List Byte) : Parse FileEnt := do
  let name ← getstring d
  let dir ← getuleb128 d
  let _ ← getuleb128 d
  let _ ← getuleb128 d
  pure ⟨name, dir.setWidth 32⟩

/-- The byte at the cursor, which is put back. dwarf_lines.cc:131-134. -/
def peek8 (d : List Byte) : Parse Byte := fun off => getu8 d off >>= fun r => .ok (r.1, off)

/-- File entries up to a zero byte. dwarf_lines.cc:130-138. -/
def files4 (d : List Byte) : Nat → Parse (List FileEnt)
  | 0 => undef
  | fuel + 1 => do
      let b ← peek8 d
      if b = 0#8 then do
        let _ ← getu8 d
        pure []
      else do
        let f ← fileEntry4 d
        let more ← files4 d fuel
        pure (f :: more)

/-- ".", "unknown". -/
def dot : List Byte := [0x2e#8]
def unknown : List Byte := [0x75#8, 0x6e#8, 0x6b#8, 0x6e#8, 0x6f#8, 0x77#8, 0x6e#8]

/-- The tables of versions before 5. dwarf_lines.cc:121-138. -/
def tables4 (d : List Byte) : Parse (List (List Byte) × List FileEnt) := do
  let dirs ← dirs4 d (d.length + 1)
  let files ← files4 d (d.length + 1)
  pure (dot :: dirs, ⟨unknown, 0#32⟩ :: files)

/-- `maximum_operations_per_instruction`, from version 4. dwarf_lines.cc:60. -/
def maxOpsByte (d : List Byte) (version : Nat) : Parse Byte := if version ≥ 4 then getu8 d else pure 1#8

/-- The tables of either kind. dwarf_lines.cc:73. -/
def tables (d : List Byte) (e : Env) (version : Nat) : Parse (List (List Byte) × List FileEnt) :=
  if version ≥ 5 then tables5 d e else tables4 d

/-- The header from `minimum_instruction_length` to the tables. dwarf_lines.cc:58-138. -/
def lineParams (d : List Byte) (e : Env) (version addressSize : Nat) : Parse LineHdr := do
  let minInsnLength ← getu8 d
  let _ ← maxOpsByte d version
  let stmt ← getu8 d
  let lineBase ← gets8 d
  let lineRange ← getu8 d
  let opcodeBase ← getu8 d
  let _ ← times (getu8 d) (opcodeBase.toNat - 1)
  let t ← tables d e version
  pure ⟨addressSize, minInsnLength, stmt ≠ 0#8, lineBase, lineRange, opcodeBase, t.1, t.2⟩

/-- From version 5, the address size; the size of segment selectors is not used. dwarf_lines.cc:48-53. -/
def lineAddrSize (d : List Byte) (version : Nat) : Parse Nat :=
  if version ≥ 5 then do
    let a ← getu8 d
    let _ ← getu8 d
    pure a.toNat
  else pure 8

/-- The header from the version to the header length; the address size. dwarf_lines.cc:46-56. -/
def linePrefix (d : List Byte) (dwarfLen : Nat) : Parse (Nat × Nat × BitVec 64) := do
  let version ← getu16 d
  let addressSize ← lineAddrSize d version.toNat
  let headerLength ← getuint d (if version.toNat > 2 then dwarfLen else 4)
  pure (version.toNat, addressSize, headerLength)

/-- The header, up to the program: also the end of the table. dwarf_lines.cc:43-145. -/
def lineHeader (d : List Byte) (e : Env) : Parse (LineHdr × Nat) := do
  let len ← getlength d
  let start ← getOffset
  let pre ← linePrefix d len.2
  let here ← getOffset
  let h ← lineParams d e pre.1 pre.2.1
  let now ← getOffset
  skip (((pre.2.2.toNat + here) % W64 + W64 - now) % W64)
  pure (h, (start + len.1) % W64)

/-- `LineInfo::build`: the header, tables and rows. dwarf_lines.cc:40-237. -/
def build (d : List Byte) (e : Env) (off : Nat) : Res (LineHdr × List LineState) := do
  let ((h, endOff), off) ← lineHeader d e off
  if off = endOff then .ok (h, [])
  else do
    let s ← LineState.init h
    let rows ← lineLoop d h endOff (d.length + 1) s off
    return (h, rows)

/-! ### Looking up an address -/

/-- The loop of `sourceFromAddr`: the first row, not ending a sequence, at or below the address while the row after it is above.
Reading the row after the last one is undefined. dwarf_unit.cc:196-206. -/
def findRow (addr : BitVec 64) : List LineState → Res (Option LineState)
  | [] => .ok none
  | r :: rest =>
      if r.endSequence then findRow addr rest
      else match rest with
        | [] => if r.addr.toNat ≤ addr.toNat then .ub else findRow addr rest
        | next :: _ =>
            if r.addr.toNat ≤ addr.toNat ∧ next.addr.toNat > addr.toNat then .ok (some r) else findRow addr rest

/-- `sourceFromAddr` once the unit contains the address: directory, file name and line of the row. An index beyond a table is
undefined. dwarf_unit.cc:190-210. -/
def sourceOf (h : LineHdr) (rows : List LineState) (addr : BitVec 64) : Res (Option (List Byte × List Byte × BitVec 32)) := do
  let r ← findRow addr rows
  match r with
  | none => return none
  | some r =>
      match h.files[r.file]? with
      | none => .ub
      | some f =>
          match h.directories[f.dirindex.toNat]? with
          | none => .ub
          | some dir => return some (dir, f.name, r.line)

end Pstack.Lines
