import Verif.Model.StackText
/-
Model of macro information: dwarf_macros.cc, dwarf_unit.cc:172-186. Messages to `context.debug` are left out.
-/
namespace Pstack.Macros
open Pstack.Dwarf Pstack.Reader Pstack.Die Pstack.Lines Pstack.StackText

/-- The sections: those of the object, .debug_macro and .debug_macinfo. -/
structure MacroSecs where
  obj : ObjDwarf
  macros : Option (List Byte)
  macinfo : Option (List Byte)

/-- class Macros. `io` is the section and where in it the view begins; a null pointer if there is no section. libpstack/dwarf.h:385-398 -/
structure Macros where
  version : Nat
  dwarflen : Nat
  lineOff : BitVec 32
  opcodes : Byte → Option (List Byte)
  io : Option (List Byte × Nat)

/-- Reading through a view that has no end (`view` of a mapped file with the default length), or through its pointer: what is behind the section is not known. reader.cc:242-244, 286-290 -/
def unbounded {α : Type} (p : Parse α) : Parse α := fun off =>
  match p off with
  | .exc => .ub
  | r => r

/-- `for (uint8_t j = 0; j < opcount; ++j)`: each turn reads a byte, so it ends with the section. dwarf_macros.cc:74-75 -/
def operandForms (d : List Byte) (n : BitVec 64) : Nat → Byte → Parse (List Byte)
  | 0, _ => throwExc
  | fuel + 1, j =>
      if j.toNat < n.toNat then do
        let b ← getu8 d
        let more ← operandForms d n fuel (j + 1)
        pure (b :: more)
      else pure []

/-- `opcodes[opcode]`, extended. dwarf_macros.cc:72-75 -/
def addForms (m : Byte → Option (List Byte)) (k : Byte) (l : List Byte) : Byte → Option (List Byte) :=
  fun k' => if k' = k then some ((m k).getD [] ++ l) else m k'

/-- The table of operands. dwarf_macros.cc:69-76 -/
def operandTable (d : List Byte) : Nat → (Byte → Option (List Byte)) → Parse (Byte → Option (List Byte))
  | 0, m => pure m
  | n + 1, m => do
      let opcode ← getu8 d
      let opcount ← unbounded (getuleb128 d)
      let forms ← operandForms d opcount (d.length + 1) 0
      operandTable d n (addForms m opcode forms)

/-- dwarf_macros.cc:65-66. An `int`; -1 if it is not there. -/
def lineOffset (d : List Byte) (flags : Byte) (w : Nat) : Parse (BitVec 32) :=
  if flags &&& 2#8 ≠ 0#8 then do
    let o ← getuint d w
    pure (o.setWidth 32)
  else pure (BitVec.allOnes 32)

/-- dwarf_macros.cc:68-77 -/
def operandTables (d : List Byte) (flags : Byte) : Parse (Byte → Option (List Byte)) :=
  if flags &&& 4#8 ≠ 0#8 then do
    let n ← getu8 d
    operandTable d n.toNat (fun _ => none)
  else pure (fun _ => none)

/-- The size of offsets. dwarf_macros.cc:59-60 -/
def offsetSize (flags : Byte) : Nat := if flags &&& 1#8 ≠ 0#8 then 8 else 4

/-- The header. dwarf_macros.cc:54-77 -/
def header5 (d : List Byte) : Parse (Nat × BitVec 32 × (Byte → Option (List Byte))) := do
  let _ ← getu16 d
  let flags ← getu8 d
  let line ← lineOffset d flags (offsetSize flags)
  let table ← operandTables d flags
  pure (offsetSize flags, line, table)

/-- `readD5`. Without a section `dwarflen` is not set. dwarf_macros.cc:48-79 -/
def readD5 (q : MacroSecs) (off : Nat) : Res Macros :=
  match q.macros with
  | none => .ok ⟨5, 0, BitVec.allOnes 32, fun _ => none, none⟩
  | some sec => do
      let ((w, line, table), off) ← header5 sec off
      .ok ⟨5, w, line, table, some (sec, off)⟩

/-- `readD4`. dwarf_macros.cc:38-46 -/
def readD4 (q : MacroSecs) (off : Nat) : Res Macros :=
  .ok ⟨4, 0, BitVec.allOnes 32, fun _ => none, q.macinfo.map (fun sec => (sec, off))⟩

/-! ### Visiting -/

/-- The calls of a visitor. libpstack/dwarf.h:833-837 -/
inductive Event
  | define (line : BitVec 32) (text : List Byte)
  | undef (line : BitVec 32) (text : List Byte)
  | startFile (line : BitVec 32) (dir : List Byte) (file : FileEnt)
  | endFile
  deriving DecidableEq

/-- What a visitor returns: of what it has been called with before, and now. -/
abbrev Visitor := List Event → Event → Bool

/-- The calls that were made, in their order, and how it ended: `none` if it has not. -/
structure Ran where
  told : List Event
  out : Option (Res (Bool × IState))

/-- Continue, unless it is left by an exception. -/
def andThen {α : Type} (told : List Event) (r : Res α) (k : α → Ran) : Ran :=
  match r with
  | .ok a => k a
  | .exc => ⟨told, some .exc⟩
  | .ub => ⟨told, some .ub⟩
  | .abort => ⟨told, some .abort⟩

/-- `if (!visitor->…) return false;` -/
def tell (v : Visitor) (told : List Event) (e : Event) (s : IState) (k : List Event → Ran) : Ran :=
  if v told e then k (told ++ [e]) else ⟨told ++ [e], some (.ok (false, s))⟩

/-- `lineinfo->files[file]`, `lineinfo->directories[fileinfo.dirindex]`: neither the pointer nor the numbers are checked. dwarf_macros.cc:119-120, 151-152 -/
def fileAt (t : Option FileTables) (i : BitVec 64) : Res (List Byte × FileEnt) :=
  match t with
  | none => .ub
  | some t =>
      match t.2[i.toNat]? with
      | none => .ub
      | some f =>
          match t.1[f.dirindex.toNat]? with
          | none => .ub
          | some dir => .ok (dir, f)

/-- An entry that has been read. -/
inductive Op
  | define (line : BitVec 64) (text : List Byte)
  | undef (line : BitVec 64) (text : List Byte)
  | startFile (line file : BitVec 64)
  | endFile
  | nested (off : BitVec 64)
  | eol
  | other

/-- A line, and a string by its position: `readFormString` with `DW_FORM_strp`, whose size is that of the unit. dwarf_macros.cc:174-175, 195-196, dwarf_reader.cc:32-35 -/
def lineStrp (q : MacroSecs) (u : Die.Unit) (sec : List Byte) (off : Nat) : Res ((BitVec 64 × List Byte) × Nat) := do
  let (line, off) ← unbounded (getuleb128 sec) off
  let (pos, off) ← unbounded (getuint sec u.dwarfLen) off
  let text ← memString q.obj.d.str pos.toNat
  .ok ((line, text), off)

/-- And by its number. dwarf_reader.cc:36-39 -/
def lineStrx (q : MacroSecs) (fuel : Nat) (u : Die.Unit) (sec : List Byte) (off : Nat) (s : IState) : Res (((BitVec 64 × List Byte) × Nat) × IState) := do
  let (line, off) ← unbounded (getuleb128 sec) off
  let (no, off) ← unbounded (getuleb128 sec) off
  let (text, s) ← strx q.obj.d fuel u no s
  .ok (((line, text), off), s)

/-- And as it is there. -/
def lineText (sec : List Byte) : Parse (BitVec 64 × List Byte) := do
  let line ← unbounded (getuleb128 sec)
  let text ← getstring sec
  pure (line, text)

def lineFile (sec : List Byte) : Parse (BitVec 64 × BitVec 64) := do
  let line ← unbounded (getuleb128 sec)
  let file ← unbounded (getuleb128 sec)
  pure (line, file)

/-- The next entry. Operands of entries that are not known are not skipped. dwarf_macros.cc:141-228 -/
def op5 (q : MacroSecs) (fuel : Nat) (u : Die.Unit) (w : Nat) (sec : List Byte) (off : Nat) (s : IState) : Res ((Op × Nat) × IState) := do
  let (code, off) ← unbounded (getu8 sec) off
  match code.toNat with
  | 0 => .ok ((.eol, off), s)
  | 1 => do
      let ((l, t), off) ← lineText sec off
      .ok ((.define l t, off), s)
  | 2 => do
      let ((l, t), off) ← lineText sec off
      .ok ((.undef l t, off), s)
  | 3 => do
      let ((l, f), off) ← lineFile sec off
      .ok ((.startFile l f, off), s)
  | 4 => .ok ((.endFile, off), s)
  | 5 => do
      let ((l, t), off) ← lineStrp q u sec off
      .ok ((.define l t, off), s)
  | 6 => do
      let ((l, t), off) ← lineStrp q u sec off
      .ok ((.undef l t, off), s)
  | 7 => do
      let (o, off) ← unbounded (getuint sec w) off
      .ok ((.nested o, off), s)
  | 0xb => do
      let (((l, t), off), s) ← lineStrx q fuel u sec off s
      .ok ((.define l t, off), s)
  | 0xc => do
      let (((l, t), off), s) ← lineStrx q fuel u sec off s
      .ok ((.undef l t, off), s)
  | _ => .ok ((.other, off), s)

/-- The line table that is used. dwarf_macros.cc:138 -/
def lines5 (q : MacroSecs) (u : Die.Unit) (m : Macros) : Res (Option FileTables) :=
  if m.lineOff ≠ BitVec.allOnes 32 then do
    let t ← linesAt q.obj u (m.lineOff.signExtend 64)
    .ok (some t)
  else .ok none

/-- Where a list is visited: the line table, the size of offsets, the section and the offset. dwarf_macros.cc:138-139 -/
def start5 (q : MacroSecs) (u : Die.Unit) (m : Macros) : Res (Option FileTables × Nat × List Byte × Nat) := do
  let t ← lines5 q u m
  match m.io with
  | none => .ub
  | some (sec, off) => .ok (t, m.dwarflen, sec, off)

/-- `Macros nest(*u.dwarf, offset, 5)`, and the start of its visit. dwarf_macros.cc:164-165 -/
def nest5 (q : MacroSecs) (u : Die.Unit) (off : BitVec 64) : Res (Option FileTables × Nat × List Byte × Nat) := do
  let m ← readD5 q off.toNat
  start5 q u m

/-- The loop of `visit5`, and that of the lists it imports. dwarf_macros.cc:140-231 -/
def loop5 (q : MacroSecs) (u : Die.Unit) (v : Visitor) : Nat → Option FileTables → Nat → List Byte → Nat → List Event → IState → Ran
  | 0, _, _, _, _, told, _ => ⟨told, none⟩
  | fuel + 1, t, w, sec, off, told, s =>
      andThen told (op5 q fuel u w sec off s) fun ((op, off), s) =>
        match op with
        | .eol => ⟨told, some (.ok (true, s))⟩
        | .other => loop5 q u v fuel t w sec off told s
        | .define l x => tell v told (.define (l.setWidth 32) x) s fun told => loop5 q u v fuel t w sec off told s
        | .undef l x => tell v told (.undef (l.setWidth 32) x) s fun told => loop5 q u v fuel t w sec off told s
        | .endFile => tell v told .endFile s fun told => loop5 q u v fuel t w sec off told s
        | .startFile l f => andThen told (fileAt t f) fun (dir, fe) =>
            tell v told (.startFile (l.setWidth 32) dir fe) s fun told => loop5 q u v fuel t w sec off told s
        | .nested o => andThen told (nest5 q u o) fun (t', w', sec', off') =>
            match loop5 q u v fuel t' w' sec' off' told s with
            | ⟨told, some (.ok (true, s))⟩ => loop5 q u v fuel t w sec off told s
            | r => r

/-- `visit5`. dwarf_macros.cc:135-233 -/
def visit5 (q : MacroSecs) (fuel : Nat) (u : Die.Unit) (m : Macros) (v : Visitor) (s : IState) : Ran :=
  andThen [] (start5 q u m) fun (t, w, sec, off) => loop5 q u v fuel t w sec off [] s

/-- The next entry. Those that are not known have no effect; operands of vendor's are not skipped. dwarf_macros.cc:96-130 -/
def op4 (sec : List Byte) : Parse Op := do
  let code ← unbounded (getu8 sec)
  match code.toNat with
  | 0 => pure .eol
  | 1 => do
      let lt ← lineText sec
      pure (.define lt.1 lt.2)
  | 2 => do
      let lt ← lineText sec
      pure (.undef lt.1 lt.2)
  | 3 => do
      let lf ← lineFile sec
      pure (.startFile lf.1 lf.2)
  | 4 => pure .endFile
  | _ => pure .other

/-- The loop of `visit4`. What `define` and `undef` return is not looked at. dwarf_macros.cc:95-131 -/
def loop4 (v : Visitor) (t : Option FileTables) (sec : List Byte) (s : IState) : Nat → Nat → List Event → Ran
  | 0, _, told => ⟨told, none⟩
  | fuel + 1, off, told =>
      andThen told (op4 sec off) fun (op, off) =>
        match op with
        | .eol => ⟨told, some (.ok (true, s))⟩
        | .define l x => loop4 v t sec s fuel off (told ++ [.define (l.setWidth 32) x])
        | .undef l x => loop4 v t sec s fuel off (told ++ [.undef (l.setWidth 32) x])
        | .endFile => tell v told .endFile s fun told => loop4 v t sec s fuel off told
        | .startFile l f => andThen told (fileAt t f) fun (dir, fe) =>
            tell v told (.startFile (l.setWidth 32) dir fe) s fun told => loop4 v t sec s fuel off told
        | _ => loop4 v t sec s fuel off told

/-- `visit4`. dwarf_macros.cc:90-133 -/
def visit4 (q : MacroSecs) (fuel : Nat) (u : Die.Unit) (m : Macros) (v : Visitor) (s : IState) : Ran :=
  andThen [] (unitLines q.obj fuel u s) fun (t, s) =>
    match m.io with
    | none => ⟨[], some .ub⟩
    | some (sec, off) => loop4 v t sec s fuel off []

/-- `Macros::visit`. dwarf_macros.cc:81-88 -/
def visit (q : MacroSecs) (fuel : Nat) (u : Die.Unit) (m : Macros) (v : Visitor) (s : IState) : Ran :=
  if m.version ≥ 5 then visit5 q fuel u m v s else visit4 q fuel u m v s

/-- `Macros(*dwarf, intmax_t(a), version)` -/
def readAt (q : MacroSecs) (version : Nat) (a : Attr) (s : IState) : Res (Option Macros × IState) := do
  let w ← toInt (some a) s
  let m ← if version ≥ 5 then readD5 q w.toNat else readD4 q w.toNat
  .ok (some m, s)

/-- `Unit::getMacros`. What it finds is kept in the unit until it is purged; as it is a function of the sections it is found again here. dwarf_unit.cc:172-186 -/
def getMacros (q : MacroSecs) (fuel : Nat) (u : Die.Unit) (s : IState) : Res (Option Macros × IState) := do
  let (r, s) ← rootDIE u s
  match r with
  | none => .ub
  | some r => do
      let (a, s) ← getAttr q.obj.d fuel r 0x2119 false s
      match a with
      | some a => readAt q 5 a s
      | none => do
          let (a, s) ← getAttr q.obj.d fuel r 0x79 false s
          match a with
          | some a => readAt q 5 a s
          | none => do
              let (a, s) ← getAttr q.obj.d fuel r 0x43 false s
              match a with
              | some a => readAt q 4 a s
              | none => .ok (none, s)

end Pstack.Macros
