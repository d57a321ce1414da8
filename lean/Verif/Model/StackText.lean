import Verif.Model.DieName
import Verif.Model.Args
import Verif.Model.Lines
/-
Model of the text of a stack: process.cc:695-795, dwarf_unit.cc:209-225, dwarf_info.cc:238-248.
-/
namespace Pstack.StackText
open Pstack.Dwarf Pstack.Reader Pstack.Die Pstack.Args Pstack.Lines

/-- The options that are used: `nosrc`, `nodienames`, `doargs`, `verbose`. libpstack/context.h -/
structure TextOpts where
  nosrc : Bool
  nodienames : Bool
  doargs : Bool
  verbose : Bool

/-- `LineInfo`: directories and files; the rows are not used here. -/
abbrev FileTables := List (List Byte) × List FileEnt

/-- The sections of an object, and .debug_line if it has one. `strx` is for strings that line tables refer to by an index. -/
structure ObjDwarf where
  d : Sections
  line : Option (List Byte)
  strx : Nat → Res (List Byte)

/-- `Info::linesAt`: without a section the tables are empty. dwarf_info.cc:238-248 -/
def linesAt (q : ObjDwarf) (u : Die.Unit) (off : BitVec 64) : Res FileTables :=
  match q.line with
  | none => .ok ([], [])
  | some sec => do
      let (h, _) ← build sec ⟨u.dwarfLen, q.d.lineStr, q.d.str, q.strx⟩ off.toNat
      .ok (h.directories, h.files)

/-- `Unit::getLines`. What it finds is kept in the unit; as it is a function of the sections it is found again here. dwarf_unit.cc:209-225 -/
def unitLines (q : ObjDwarf) (fuel : Nat) (u : Die.Unit) (s : IState) : Res (Option FileTables × IState) := do
  let (r, s) ← rootDIE u s
  match r with
  | none => .ub
  | some r => do
      let raw ← rawOf s r
      if raw.type.tag = 0x3c ∨ raw.type.tag = 0x11 then do
        let (a, s) ← getAttr q.d fuel r 0x10 false s
        match a with
        | none => .ok (none, s)
        | some a => do
            let w ← toInt (some a) s
            let t ← linesAt q u w
            .ok (some t, s)
      else .ok (none, s)

/-- A file, and a line in it: `std::pair<std::string, int>`. -/
abbrev Src := List Byte × BitVec 32

/-- `verbose ? dirname + "/" + fileEnt.name : fileEnt.name`. process.cc:748 -/
def fileName (verbose : Bool) (dir name : List Byte) : List Byte := if verbose then dir ++ (say "/" ++ name) else name

/-- `lineinfo->files[i]` and `lineinfo->directories[fileEnt.dirindex]`, not checked. process.cc:746-748 -/
def fileOf (verbose : Bool) (t : FileTables) (i : BitVec 64) : Res (List Byte) :=
  match t.2[i.toNat]? with
  | none => .ub
  | some f =>
      match t.1[f.dirindex.toNat]? with
      | none => .ub
      | some dir => .ok (fileName verbose dir f.name)

/-- Where an inlined function was called. process.cc:746-749 -/
def callSite (q : ObjDwarf) (fuel : Nat) (verbose : Bool) (t : FileTables) (x : DIE) (s : IState) : Res (Src × IState) := do
  let (a, s) ← getAttr q.d fuel x 0x58 false s
  let i ← toInt a s
  let name ← fileOf verbose t i
  let (b, s) ← getAttr q.d fuel x 0x59 false s
  let l ← toInt b s
  .ok ((name, l.setWidth 32), s)

/-- `std::left << std::setw(w) << std::setfill(' ')` -/
def padded (w : Nat) (l : List Byte) : List Byte := l ++ List.replicate (w - l.length) 0x20#8

/-- `std::hex << std::setw(w) << std::setfill('0')`, `std::right` -/
def hexPadded (w n : Nat) : List Byte :=
  let l := say (String.ofList (Nat.toDigits 16 n))
  List.replicate (w - l.length) 0x30#8 ++ l

/-- `" at " << src.first << ":" << src.second` -/
def atText (src : Src) : List Byte := say " at " ++ (src.1 ++ (say ":" ++ dec src.2.toInt))

/-- What follows the name of an inlined function; the place for the next. process.cc:742-752 -/
def inlinedAtText (q : ObjDwarf) (fuel : Nat) (o : TextOpts) (x : DIE) (src : Src) (s : IState) : Res ((List Byte × Src) × IState) :=
  if o.nosrc then .ok (([], src), s)
  else do
    let (t, s) ← unitLines q fuel x.unit s
    match t with
    | none => .ok (([], src), s)
    | some t => do
        let (src', s) ← callSite q fuel o.verbose t x s
        .ok ((atText src ++ say "\n", src'), s)

/-- The number of a frame. process.cc:736-737, 756-757 -/
def numberText (no : Nat) : List Byte := say "#" ++ (padded 2 (dec no) ++ say " ")

/-- The loop over inlined functions, in this order. process.cc:732-754 -/
def inlinedText (q : ObjDwarf) (fuel : Nat) (o : TextOpts) (no : Nat) : List DIE → Src → IState → Res ((List Byte × Src) × IState)
  | [], src, s => .ok (([], src), s)
  | x :: xs, src, s => do
      let (name, _, s) ← buildName q.d fuel fuel (some x) true s
      let ((t, src), s) ← inlinedAtText q fuel o x src s
      let ((ts, src), s) ← inlinedText q fuel o no xs src s
      .ok ((numberText no ++ (padded 18 (say "inlined") ++ (say " in " ++ (name ++ (t ++ ts)))), src), s)

/-- A frame: its program counter; whether it is that of a signal trampoline; how it was found; the address in the object that is looked up; the name of the object, if it is in one; what is
added to addresses of the object; the entry of the function, the symbol (its value and name), and the lines in sources, as they were found; and what arguments are shown with. -/
structure FrameIn where
  rawIP : BitVec 64
  trampoline : Bool
  mechanism : List Byte
  addr : BitVec 64
  object : Option (List Byte)
  reloc : BitVec 64
  die : Option DIE
  sym : Option (BitVec 64 × List Byte)
  source : List Src
  ctx : Ctx

/-- `PrintableFrame`. process.cc:411-456 -/
def printable (q : ObjDwarf) (fuel : Nat) (o : TextOpts) (f : FrameIn) (s : IState) : Res ((List Byte × BitVec 64 × List DIE) × IState) :=
  match f.object with
  | none => .ok (([], BitVec.allOnes 64, []), s)
  | some _ => printableFrame q.d fuel fuel fuel (if o.nodienames then none else f.die) (f.sym.map (·.1)) f.addr s

/-- `source.size() ? source[0] : std::make_pair("", max)`. process.cc:725-730 -/
def firstSource (o : TextOpts) (l : List Src) : Src :=
  if o.nosrc then ([], BitVec.allOnes 32) else l.headD ([], BitVec.allOnes 32)

/-- The name that is shown. process.cc:763-778 -/
def nameText (f : FrameIn) (dieName : List Byte) : List Byte :=
  let flag := if f.trampoline then say "*" else []
  if dieName ≠ [] then dieName ++ flag
  else
    match f.sym with
    | some (_, n) => n ++ (flag ++ (if f.die.isSome then say "%" else say "!"))
    | none => say "<unknown>" ++ flag

/-- `ArgPrint`. process.cc:638-645, 779 -/
def argPrint (q : ObjDwarf) (fuel : Nat) (o : TextOpts) (f : FrameIn) (s : IState) : Res (List Byte × IState) :=
  if o.doargs then argsText q.d fuel fuel fuel fuel f.ctx f.die s else .ok ([], s)

/-- `if (pframe.functionOffset != max) os << "+" << functionOffset`. process.cc:781-782 -/
def offsetText (off : BitVec 64) : List Byte := if off = BitVec.allOnes 64 then [] else say "+" ++ dec off.toNat

/-- What is shown of a frame in an object. process.cc:762-787 -/
def objectText (q : ObjDwarf) (fuel : Nat) (o : TextOpts) (f : FrameIn) (dieName : List Byte) (off : BitVec 64) (object : List Byte) (src : Src) (s : IState) : Res (List Byte × IState) := do
  let (args, s) ← argPrint q fuel o f s
  .ok (say " in " ++ (nameText f dieName ++ (say "(" ++ (args ++ (say ")" ++ (offsetText off ++ (say " in " ++ (object ++
    ((if o.verbose then say "@0x" ++ hexPadded 0 (f.rawIP - f.reloc).toNat else []) ++ (if src.1 ≠ [] then atText src else []))))))))), s)

/-- The function itself. process.cc:761-790 -/
def placeText (q : ObjDwarf) (fuel : Nat) (o : TextOpts) (f : FrameIn) (dieName : List Byte) (off : BitVec 64) (src : Src) (s : IState) : Res (List Byte × IState) :=
  match f.object with
  | none => .ok (say " no information for frame", s)
  | some object => objectText q fuel o f dieName off object src s

/-- `Process::dumpFrameText`. process.cc:716-795 -/
def frameText (q : ObjDwarf) (fuel : Nat) (o : TextOpts) (no : Nat) (f : FrameIn) (s : IState) : Res (List Byte × IState) := do
  let ((name, off, inlined), s) ← printable q fuel o f s
  let ((ts, src), s) ← inlinedText q fuel o no inlined.reverse (firstSource o f.source) s
  let (t, s) ← placeText q fuel o f name off src s
  .ok (ts ++ (numberText no ++ (say "0x" ++ (hexPadded 16 f.rawIP.toNat ++ (t ++ ((if o.verbose then say " via " ++ f.mechanism else []) ++ say "\n"))))), s)

/-- A lwp: thread and its type, if they are known; the id; the name. -/
structure LwpIn where
  thread : Option (BitVec 64 × Int)
  id : Int
  name : Option (List Byte)

/-- The heading. process.cc:698-708 -/
def headText (l : LwpIn) : List Byte :=
  (match l.thread with
    | some (tid, type) => say "thread: " ++ (pointer tid.toNat ++ (say ", type: " ++ (dec type ++ say ", ")))
    | none => []) ++ (say "lwp: " ++ (dec l.id ++ ((match l.name with
    | some n => say ", name: " ++ n
    | none => []) ++ say "\n")))

/-- The frames, each in an object of this number. What was looked at is known for each object. process.cc:710-712 -/
def framesText (objs : Nat → ObjDwarf) (fuel : Nat) (o : TextOpts) : Nat → List (Nat × FrameIn) → (Nat → IState) → Res (List Byte × (Nat → IState))
  | _, [], S => .ok ([], S)
  | no, (k, f) :: fs, S => do
      let (t, s) ← frameText (objs k) fuel o no f (S k)
      let (ts, S) ← framesText objs fuel o (no + 1) fs (fun j => if j = k then s else S j)
      .ok (t ++ ts, S)

/-- `Process::dumpStackText`. process.cc:695-714 -/
def stackText (objs : Nat → ObjDwarf) (fuel : Nat) (o : TextOpts) (l : LwpIn) (fs : List (Nat × FrameIn)) (S : Nat → IState) : Res (List Byte × (Nat → IState)) := do
  let (t, S) ← framesText objs fuel o 0 fs S
  .ok (headText l ++ t, S)

end Pstack.StackText
