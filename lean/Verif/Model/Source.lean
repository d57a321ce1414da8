import Verif.Model.StackText
import Verif.Model.FindEntry
/-
Model of the search for the line of an address, and of frames for which the function and the line are looked up: dwarf_info.cc:33-42, dwarf_unit.cc:188-225, dwarf_info.cc:238-248,
dwarfproc.cc:668-726, process.cc:411-456, 716-795.
-/
namespace Pstack.StackText
open Pstack.Dwarf Pstack.Reader Pstack.Die Pstack.Args Pstack.Lines

/-- `LineInfo`: the header, with directories and files, and the rows. -/
abbrev UnitTable := LineHdr × List LineState

/-- `LineInfo`, nothing in it; the first fields are not used. libpstack/dwarf.h -/
def noTable : UnitTable := (⟨0, 0, false, 0, 0, 0, [], []⟩, [])

/-- `Info::linesAt`. dwarf_info.cc:238-248 -/
def tableAt (q : ObjDwarf) (u : Die.Unit) (off : BitVec 64) : Res UnitTable :=
  match q.line with
  | none => .ok noTable
  | some sec => build sec ⟨u.dwarfLen, q.d.lineStr, q.d.str, q.strx⟩ off.toNat

/-- `Unit::getLines`, with the rows. As for `unitLines`, what is kept in the unit is found again here. dwarf_unit.cc:209-225 -/
def unitTable (q : ObjDwarf) (fuel : Nat) (u : Die.Unit) (s : IState) : Res (Option UnitTable × IState) := do
  let (r, s) ← rootDIE u s
  match r with
  | none => .ub
  | some r => do
      let raw ← rawOf s r
      if raw.type.tag = 0x3c ∨ raw.type.tag = 0x11 then do
        let (a, s) ← getAttr q.d fuel r 0x10 false s
        match a with
        | none => .ok (none, s)
        | some a => do
            let w ← toInt (some a) s
            let t ← tableAt q u w
            .ok (some t, s)
      else .ok (none, s)

/-- `info.emplace_back(verbose ? dirname + "/" + name : name, line)`, for the row that is found. dwarf_unit.cc:193-205 -/
def tableSource (verbose : Bool) (addr : BitVec 64) (t : UnitTable) : Res (List Src) := do
  let r ← sourceOf t.1 t.2 addr
  match r with
  | none => .ok []
  | some (dir, name, line) => .ok [(fileName verbose dir name, line)]

/-- `Unit::sourceFromAddr`. dwarf_unit.cc:188-207 -/
def unitSource (q : ObjDwarf) (fuel : Nat) (verbose : Bool) (addr : BitVec 64) (u : Die.Unit) (s : IState) : Res (List Src × IState) := do
  let (r, s) ← rootDIE u s
  match r with
  | none => .ub
  | some r => do
      let (c, s) ← containsAddress q.d fuel r addr s
      if c = .no then .ok ([], s)
      else do
        let (t, s) ← unitTable q fuel u s
        match t with
        | none => .ok ([], s)
        | some t => do
            let l ← tableSource verbose addr t
            .ok (l, s)

/-- `Info::sourceFromAddr`. `sec` is .debug_aranges. dwarf_info.cc:33-42 -/
def sourceFromAddr (q : ObjDwarf) (sec : Option (List Byte)) (fuel : Nat) (verbose : Bool) (addr : BitVec 64) (t : Lookup) (s : IState) : Res (List Src × Lookup × IState) := do
  let (u, t, s) ← lookupUnit q.d sec fuel addr t s
  match u with
  | none => .ok ([], t, s)
  | some u => do
      let (l, s) ← unitSource q fuel verbose addr u s
      .ok (l, t, s)

/-- Is `location.die()` used? It is for the name, for arguments, and to mark names of symbols. process.cc:419-420, 638-645, 770-772 -/
def dieUsed (o : TextOpts) (f : FrameIn) : Bool := !o.nodienames || o.doargs || f.sym.isSome

/-- `ProcessLocation::die()`. It is looked up here once, where the program does so each time it is used. dwarfproc.cc:668-679 -/
def locateDie (q : ObjDwarf) (sec : Option (List Byte)) (fuel : Nat) (o : TextOpts) (f : FrameIn) (t : Lookup) (s : IState) : Res (Option DIE × Lookup × IState) :=
  if dieUsed o f then functionAt q.d sec fuel fuel f.addr t s else .ok (none, t, s)

/-- `ProcessLocation::source()`, unless it is not wanted. dwarfproc.cc:701-712, process.cc:722-723 -/
def locateSource (q : ObjDwarf) (sec : Option (List Byte)) (fuel : Nat) (o : TextOpts) (f : FrameIn) (t : Lookup) (s : IState) : Res (List Src × Lookup × IState) :=
  if o.nosrc then .ok ([], t, s) else sourceFromAddr q sec fuel o.verbose f.addr t s

/-- `Process::dumpFrameText`, where the function and the line are looked up (those in `f` are not used): in the program, the line is looked up after inlined functions. process.cc:716-795 -/
def locatedFrame (q : ObjDwarf) (sec : Option (List Byte)) (fuel : Nat) (o : TextOpts) (no : Nat) (f : FrameIn) (t : Lookup) (s : IState) : Res (List Byte × Lookup × IState) :=
  match f.object with
  | none => do
      let (x, s) ← frameText q fuel o no { f with die := none, source := [] } s
      .ok (x, t, s)
  | some _ => do
      let (die, t, s) ← locateDie q sec fuel o f t s
      let (src, t, s) ← locateSource q sec fuel o f t s
      let (x, s) ← frameText q fuel o no { f with die := die, source := src } s
      .ok (x, t, s)

/-- All that is known of the objects. -/
abbrev ObjStates := Nat → Lookup × IState

/-- The frames. process.cc:710-712 -/
def locatedFrames (objs : Nat → ObjDwarf) (secs : Nat → Option (List Byte)) (fuel : Nat) (o : TextOpts) : Nat → List (Nat × FrameIn) → ObjStates → Res (List Byte × ObjStates)
  | _, [], S => .ok ([], S)
  | no, (k, f) :: fs, S => do
      let (x, t, s) ← locatedFrame (objs k) (secs k) fuel o no f (S k).1 (S k).2
      let (xs, S) ← locatedFrames objs secs fuel o (no + 1) fs (fun j => if j = k then (t, s) else S j)
      .ok (x ++ xs, S)

/-- `Process::dumpStackText`. process.cc:695-714 -/
def locatedStack (objs : Nat → ObjDwarf) (secs : Nat → Option (List Byte)) (fuel : Nat) (o : TextOpts) (l : LwpIn) (fs : List (Nat × FrameIn)) (S : ObjStates) : Res (List Byte × ObjStates) := do
  let (x, S) ← locatedFrames objs secs fuel o 0 fs S
  .ok (headText l ++ x, S)

end Pstack.StackText
