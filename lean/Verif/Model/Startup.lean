import Verif.Model.Map
import Verif.Spec.Dwarf
/-
Model of how a process is taken apart when it is opened: process.cc (`Process::load`, `processAUXV`, `findRDebugAddr`, `loadSharedObjects`, `addElfObject`).

Memory is a partial function from addresses to bytes that does not change. `io` is a `CacheReader`, whose reads are short at a hole. Strings are what `readString` gives (C06), and the elements of a
`ReaderArray` are read one by one (C05). What is written to `*context.debug` is left out, as are threads and the thread database.
-/
namespace Pstack.Startup
open Pstack.Spec (leNat)

abbrev Path := List Char
abbrev BuildId := List Byte

/-- An `Elf::Object`, as far as it is looked at here: which one it is, its header's `e_entry`, address and size of its PT_DYNAMIC segments, its interpreter and build id. -/
structure Image where
  id : Nat
  entry : Nat
  dynamics : List (Nat × Nat) := []
  interp : Path := []
  bid : BuildId := []
  deriving DecidableEq

/-- libpstack/proc.h:222-240 -/
structure Obj where
  name : Path
  bid : BuildId
  image : Option Image
  deriving DecidableEq

/-- What the process consists of. -/
structure World where
  mem : Nat → Option Byte
  /-- What `readString` does. -/
  str : Nat → Res Path
  /-- The contents of the auxiliary vector, and whether the reader knows how much it is (that of a core does, live.cc:24-26 does not). -/
  auxv : Option (List Byte × Bool)
  /-- The ELF image in memory at an address, of which this many bytes are looked at; none: the constructor throws. -/
  elfAt : Nat → Nat → Option Image
  /-- `context.findImage` -/
  findId : BuildId → Option Image
  findName : Path → Option Image
  /-- `executableImage`. -/
  self : Option Image
  /-- `resolveSymbol("_r_debug")` in the interpreter; none: it throws. -/
  rdebugSym : OMap Obj → Option Nat
  /-- The entries of the NT_FILE note: name, address and offset in the file; none: not a core. dead.cc:308-333, live.cc:352-358 -/
  fileNote : Option (List (Path × Nat × Nat))

/-- libpstack/proc.h:242-265 -/
structure Proc where
  entry : Nat := 0
  dtDebug : Nat := 0
  interpBase : Nat := 0
  vdsoBase : Nat := 0
  execBase : Nat := 0
  objects : OMap Obj := []
  exec : Option Image := none
  vdso : Option Image := none
  deriving DecidableEq

/-- The constructor. process.cc:154-164 -/
def Proc.new (exec : Option Image) : Proc := { exec := exec, entry := match exec with | some e => e.entry | none => 0 }

/-- Some bytes of memory, all of them. -/
def bytesAt (mem : Nat → Option Byte) (a : Nat) : Nat → Option (List Byte)
  | 0 => some []
  | n + 1 => do
      let b ← mem (a % W64)
      let l ← bytesAt mem (a + 1) n
      return b :: l

/-- `readObj`: some bytes; none: it throws. reader.h:82-100 -/
def readObj (mem : Nat → Option Byte) (a n : Nat) : Res (List Byte) :=
  match bytesAt mem a n with
  | some l => .ok l
  | none => .exc

/-- `read`, into zeros. -/
def readInto (mem : Nat → Option Byte) (a : Nat) : Nat → List Byte
  | 0 => []
  | n + 1 =>
      match mem (a % W64) with
      | some b => b :: readInto mem (a + 1) n
      | none => List.replicate (n + 1) 0

/-- The number at an offset of a structure. -/
def field (l : List Byte) (off n : Nat) : Nat := leNat ((l.drop off).take n)

/-- The number of elements of an array in a view of this size. reader.h:289-296 -/
def elements (size item : Nat) : Res Nat := if size ≠ W64 - 1 ∧ size % item ≠ 0 then .exc else .ok (size / item)

/-- The loop over the dynamic section. process.cc:236-245 -/
def dynLoop (mem : Nat → Option Byte) (base : Nat) : Nat → Nat → Res Nat
  | 0, _ => .ok 0
  | n + 1, i => do
      let l ← readObj mem (base + 16 * i) 16
      if field l 0 8 = 21 ∧ field l 8 8 ≠ 0 then return field l 8 8
      dynLoop mem base n (i + 1)

/-- `extractDtDebugFromDynamicSegment`. process.cc:233-246 -/
def extractDtDebug (mem : Nat → Option Byte) (vaddr filesz loadAddr : Nat) : Res Nat := do
  let n ← elements filesz 16
  dynLoop mem ((vaddr + loadAddr) % W64) n 0

/-- `addElfObject`. process.cc:797-819 -/
def addElfObject (w : World) (p : Proc) (name : Path) (obj : Option Image) (load : Nat) : Proc :=
  let bid := match obj with
    | some i => i.bid
    | none => match w.elfAt load 0x4000 with
        | some i => i.bid
        | none => []
  { p with objects := p.objects.emplace load ⟨name, bid, obj⟩ }

/-- What the loop over the auxiliary vector finds: the process, the name of the executable, where the headers are and how many. -/
structure Aux where
  proc : Proc
  exeName : Path := []
  phOff : Nat := 0
  phNum : Nat := 0

/-- One entry of the auxiliary vector. process.cc:260-312 -/
def auxEntry (w : World) (a : Aux) (type hdr : Nat) : Aux :=
  if type = 9 then { a with proc := { a.proc with entry := hdr } }
  else if type = 33 then
    match w.elfAt hdr 65536 with
    | none => a
    | some elf => { a with proc := { addElfObject w { a.proc with vdsoBase := hdr } "(vdso image)".toList (some elf) hdr with vdso := some elf } }
  else if type = 7 then { a with proc := { a.proc with interpBase := hdr } }
  else if type = 31 then
    match w.str hdr with
    | .ok s => { a with exeName := s }
    | _ => a
  else if type = 3 then { a with phOff := hdr }
  else if type = 5 then { a with phNum := hdr }
  else a

/-- The loop over it. `n` is how often it may run. process.cc:254-313 -/
def auxLoop (w : World) (sized : Bool) : Nat → List Byte → Aux → Res Aux
  | 0, _, a => .ok a
  | n + 1, l, a =>
      if sized ∧ l = [] then .ok a
      else if l.length < 16 then .exc
      else if field l 0 8 = 0 then .ok a
      else auxLoop w sized n (l.drop 16) (auxEntry w a (field l 0 8) (field l 8 8))

/-- What the loop over the program headers finds. -/
structure Headers where
  execBase : Nat
  notes : List Nat := []
  dynamic : Option (Nat × Nat) := none

/-- One program header, of 56 bytes. process.cc:325-336 -/
def headerEntry (phOff : Nat) (h : Headers) (l : List Byte) : Headers :=
  if field l 0 4 = 6 then { h with execBase := (phOff + W64 - field l 16 8) % W64 }
  else if field l 0 4 = 4 then { h with notes := h.notes ++ [field l 16 8] }
  else if field l 0 4 = 2 then { h with dynamic := some (field l 16 8, field l 32 8) }
  else h

/-- The loop over them, which ends when one cannot be read. process.cc:318-341 -/
def headerLoop (mem : Nat → Option Byte) (phOff : Nat) : Nat → Nat → Headers → Headers
  | 0, _, h => h
  | n + 1, i, h =>
      match readObj mem (phOff + 56 * i) 56 with
      | .ok l => headerLoop mem phOff n (i + 1) (headerEntry phOff h l)
      | _ => h

/-- The search for a build id in notes, and for the image for it. process.cc:347-369 -/
def noteLoop (w : World) (execBase : Nat) : List Nat → Res (Option Image)
  | [] => .ok none
  | off :: notes => do
      let va := (off + execBase) % W64
      let l ← readObj w.mem va 12
      if field l 8 4 ≠ 3 then noteLoop w execBase notes
      else if field l 0 4 = 0 then .ub
      else
        let name := readInto w.mem (va + 12) (field l 0 4)
        let name := if name.getLast? = some 0 then name.dropLast else name
        if name ≠ [0x47, 0x4e, 0x55] then noteLoop w execBase notes
        else return w.findId (readInto w.mem (va + 12 + 4) (field l 4 4))

/-- What the dynamic section says. process.cc:343-345 -/
def headersDebug (mem : Nat → Option Byte) (dtDebug : Nat) (h : Headers) : Res Nat :=
  match h.dynamic with
  | some (va, sz) => if dtDebug = 0 then extractDtDebug mem va sz h.execBase else .ok dtDebug
  | none => .ok dtDebug

/-- What is done with the program headers. process.cc:315-370 -/
def useHeaders (w : World) (a : Aux) : Res Proc :=
  if a.phOff ≠ 0 ∧ a.phNum ≠ 0 then do
    let n ← elements (56 * a.phNum % W64) 56
    let h := headerLoop w.mem a.phOff n 0 { execBase := a.proc.execBase }
    let dt ← headersDebug w.mem a.proc.dtDebug h
    let p : Proc := { a.proc with execBase := h.execBase, dtDebug := dt }
    match a.proc.exec with
    | some _ => .ok p
    | none => do
        let e ← noteLoop w h.execBase h.notes
        return { p with exec := e }
  else .ok a.proc

/-- The executable, if it is not known yet. process.cc:372-375 -/
def chooseExec (w : World) (exeName : Path) (p : Proc) : Proc :=
  let p : Proc := if p.exec = none ∧ exeName ≠ [] then { p with exec := w.findName exeName } else p
  if p.exec = none then { p with exec := w.self } else p

/-- `processAUXV`. process.cc:248-376 -/
def processAUXV (w : World) (auxv : List Byte × Bool) (p : Proc) : Res Proc :=
  if auxv.2 ∧ auxv.1.length % 16 ≠ 0 then .exc
  else do
    let a ← auxLoop w auxv.2 (auxv.1.length / 16 + 1) auxv.1 { proc := p }
    let p ← useHeaders w a
    return chooseExec w a.exeName p

/-- The loop over the dynamic segments of the executable: the last one counts. process.cc:895-898 -/
def execDynamics (mem : Nat → Option Byte) (loadAddr : Nat) : List (Nat × Nat) → Nat → Res Nat
  | [], dt => .ok dt
  | (va, sz) :: l, _ => do
      let dt ← extractDtDebug mem va sz loadAddr
      execDynamics mem loadAddr l dt

/-- What the dynamic section of the executable says. process.cc:887-899 -/
def execDebug (mem : Nat → Option Byte) (p : Proc) : Res Nat :=
  match p.exec with
  | some e => if p.dtDebug = 0 then execDynamics mem ((p.entry + W64 - e.entry) % W64) e.dynamics 0 else .ok p.dtDebug
  | none => .ok p.dtDebug

/-- `findRDebugAddr`. process.cc:874-922 -/
def findRDebugAddr (w : World) (p : Proc) : Res Proc := do
  let dt ← execDebug w.mem p
  let p : Proc := { p with dtDebug := dt }
  match p.exec with
  | some e =>
      if p.dtDebug = 0 ∧ p.interpBase ≠ 0 ∧ e.interp ≠ [] then
        let p := addElfObject w p e.interp none p.interpBase
        match w.rdebugSym p.objects with
        | some a => return { p with dtDebug := a }
        | none => return p
      else return p
  | none => return p

/-- One entry of the link map, at `addr`; `first` is where the map begins. process.cc:833-870 -/
def mapEntry (w : World) (first addr : Nat) (l : List Byte) (p : Proc) : Res Proc :=
  let load := field l 0 8
  if addr = first then
    match p.exec with
    | some e => .ok (addElfObject w { p with execBase := if p.execBase = 0 then (p.entry + W64 - e.entry) % W64 else p.execBase } "(exe)".toList (some e) load)
    | none => .ok p
  else if p.vdsoBase ≠ 0 ∧ load = p.vdsoBase then .ok p
  else if field l 8 8 = 0 then .ok p
  else do
    let path ← w.str (field l 8 8)
    if path = [] then return p
    return addElfObject w p path none load

/-- The loop over the link map: the process, and false if it was left with an exception. none: it did not end within `fuel` entries. process.cc:830-871 -/
def mapsLoop (w : World) (first : Nat) : Nat → Nat → Proc → Option (Proc × Bool)
  | 0, _, _ => none
  | n + 1, addr, p =>
      if addr = 0 then some (p, true)
      else match readObj w.mem addr 40 with
        | .ok l =>
            match mapEntry w first addr l p with
            | .ok p => mapsLoop w first n (field l 24 8) p
            | _ => some (p, false)
        | _ => some (p, false)

/-- `loadSharedObjects`. process.cc:824-872 -/
def loadSharedObjects (w : World) (fuel : Nat) (p : Proc) : Option (Proc × Bool) :=
  match readObj w.mem p.dtDebug 40 with
  | .ok l => mapsLoop w (field l 8 8) fuel (field l 8 8) p
  | _ => some (p, false)

/-- The other way to find libraries. dead.cc:308-333 -/
def fromFileNote (w : World) (p : Proc) (l : List (Path × Nat × Nat)) : Proc :=
  l.foldl (fun p e => if e.2.2 = 0 then addElfObject w p e.1 none e.2.1 else p) p

/-- The beginning of `load`. process.cc:172-181 -/
def loadAuxv (w : World) (p : Proc) : Res Proc :=
  match w.auxv with
  | some a => processAUXV w a p
  | none => .ok p

/-- The other way, if there is one. process.cc:196-211 -/
def hailMary (w : World) (p : Proc) : Res Proc :=
  match w.fileNote with
  | some l => .ok (fromFileNote w p l)
  | none => .exc

/-- `load`. Of what `findRDebugAddr` has done before it throws, only the objects matter, and these are unchanged then. none: it does not end. process.cc:166-212 -/
def load (w : World) (fuel : Nat) (p : Proc) : Option (Res Proc) :=
  match loadAuxv w p with
  | .ok p =>
      match findRDebugAddr w p with
      | .ok p =>
          if p.dtDebug = 0 ∨ p.dtDebug = W64 - 1 then
            some (.ok (match p.exec with
              | some e => addElfObject w p [] (some e) 0
              | none => p))
          else match loadSharedObjects w fuel p with
            | some (p, true) => some (.ok p)
            | some (p, false) => some (hailMary w p)
            | none => none
      | _ => some (hailMary w p)
  | r => some r

end Pstack.Startup
