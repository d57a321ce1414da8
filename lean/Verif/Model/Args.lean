import Verif.Model.FindEntry
import Verif.Model.DieName
import Verif.Model.LocList
import Verif.Model.Python
/-
Model of the arguments shown with a frame: their values, and the list of them. process.cc:457-680, dwarfproc.cc:110-211.

The memory of the process is stopped. `p.io` is a `CacheReader`: where there is no memory a read is short. Text is a list of bytes.
-/
namespace Pstack.Args
open Pstack.Dwarf Pstack.Reader Pstack.Die Pstack.Arch Pstack.Expr
open Pstack.Python (Mem num)

/-- The bytes of a literal. -/
def say (s : String) : List Byte := s.toList.map (fun c => BitVec.ofNat 8 c.toNat)

/-- `os << n`, `std::dec`. -/
def dec (z : Int) : List Byte := say (toString z)

/-- `os << (void *)p` of libstdc++: hexadecimal with the base before it, which 0 does not have. -/
def pointer (n : Nat) : List Byte := if n = 0 then say "0" else say "0x" ++ say (String.ofList (Nat.toDigits 16 n))

/-- The tags that `removeCV` removes: DW_TAG_typedef, DW_TAG_const_type, DW_TAG_volatile_type. process.cc:459-462 -/
def isCV (t : Nat) : Bool := t == 0x16 || t == 0x26 || t == 0x35

/-- `Dwarf::DIE(x.attribute(DW_AT_type))`. -/
def typeOf (d : Sections) (fuel : Nat) (x : DIE) (s : IState) : Res (Option DIE × IState) := do
  let (a, s) ← getAttr d fuel x 0x49 false s
  toDIE d a s

/-- `removeCV`. The first number is for `attribute`, the second for the rounds of the loop, which need not end. process.cc:458-465 -/
def removeCV (d : Sections) (fuel : Nat) : Nat → Option DIE → IState → Res (Option DIE × IState)
  | 0, _, _ => .ub
  | _ + 1, none, s => .ok (none, s)
  | n + 1, some x, s => do
      let r ← rawOf s x
      if isCV r.type.tag then do
        let (y, s) ← typeOf d fuel x s
        removeCV d fuel n y s
      else .ok (some x, s)

/-- `buf.resize(size); p.io->read(addr, size, &buf[0])`: what there is of the bytes, and zeros. That the read was short is recorded in `error`, which nothing looks at.
Allocating the buffer is taken to succeed. process.cc:500-508 -/
def readBuf (mem : Mem) : Nat → Nat → List Byte
  | _, 0 => []
  | a, n + 1 =>
      match mem a with
      | some b => b :: readBuf mem (a + 1) n
      | none => List.replicate (n + 1) 0#8

/-- The size of a type. process.cc:491-499 -/
def sizeOfType (d : Sections) (fuel : Nat) (x : DIE) (s : IState) : Res (Nat × IState) := do
  let (a, s) ← getAttr d fuel x 0x0b false s
  match a with
  | some a => do
      let (w, s) ← toNum d fuel (some a) s
      .ok (w.toNat, s)
  | none => do
      let r ← rawOf s x
      .ok (if r.type.tag = 0x10 ∨ r.type.tag = 0x0f then 8 else 0, s)

/-- A number of `w` bytes. -/
def leWord (w : Nat) (v : BitVec 64) : List Byte := (List.range w).map (fun i => BitVec.ofNat 8 (v.toNat / 256 ^ i))

/-- `RemoteValue::RemoteValue`, after `removeCV`: the buffer. A null type is dereferenced. process.cc:481-511 -/
def valueBuf (d : Sections) (fuel : Nat) (mem : Mem) (addr : BitVec 64) (isValue : Bool) (type : Option DIE) (s : IState) : Res (List Byte × IState) :=
  if isValue then .ok (leWord 8 addr, s)
  else match type with
    | none => .ub
    | some x => do
        let (size, s) ← sizeOfType d fuel x s
        .ok (readBuf mem addr.toNat size, s)

/-- A signed number. -/
def toSigned (buf : List Byte) : Int := Python.signed buf.length (num buf)

/-- `os << *u.int8`, ...: one byte is a character, numbers are signed, other sizes are not known. process.cc:551-590 -/
def integerText (buf : List Byte) : List Byte :=
  match buf.length with
  | 1 => buf
  | 2 | 4 | 8 => dec (toSigned buf)
  | _ => say "<unknown value type>"

/-- A base type. `float` is what is written of a number of 4 or 8 bytes; other sizes write nothing. `&rv.buf[0]` of an empty buffer is undefined. process.cc:522-606 -/
def baseText (float : List Byte → List Byte) (enc : Nat) (buf : List Byte) : Res (List Byte) :=
  if buf = [] then .ub
  else match enc with
    | 1 => if buf.length < 8 then .ub else .ok (pointer (num (buf.take 8)))
    | 2 => .ok (if buf.all (· == 0#8) then say "false" else say "true")
    | 5 | 6 | 7 | 8 => .ok (integerText buf)
    | 4 => .ok (if buf.length = 4 ∨ buf.length = 8 then float buf else [])
    | _ => .ok (say "<unknown value type>")

/-- `Reader::readString`. reader.cc:88-103 -/
def strBytes (mem : Mem) : Nat → Nat → List Byte
  | 0, _ => []
  | n + 1, a =>
      match mem a with
      | none => []
      | some b => if b = 0 then [] else b :: strBytes mem n (a + 1)

def readStr (mem : Mem) (a : Nat) : List Byte := if a = 0 then say "(null)" else strBytes mem (W64 - 1 - a) a

/-- The pointer, and what it points to; `shows` writes the object of a type at an address. process.cc:611-634 -/
def targetText (d : Sections) (fuel : Nat) (mem : Mem) (shows : BitVec 64 → Option DIE → IState → Res (List Byte × IState)) (ptr : BitVec 64) (y : Option DIE) (s : IState) :
    Res (List Byte × IState) :=
  match y with
  | none => .ok (pointer ptr.toNat, s)
  | some y => do
      let (n, s) ← dieName d fuel y s
      if n = say "char" then .ok (pointer ptr.toNat ++ (say " \"" ++ (readStr mem ptr.toNat ++ say "\"")), s)
      else if ptr = 0 then .ok (pointer ptr.toNat ++ say "->nullptr", s)
      else do
        let (t, s) ← shows ptr (some y) s
        .ok (pointer ptr.toNat ++ (say "->" ++ t), s)

/-- `case DW_TAG_base_type`. process.cc:522-608 -/
def encodedText (d : Sections) (fuel : Nat) (float : List Byte → List Byte) (buf : List Byte) (x : DIE) (s : IState) : Res (List Byte × IState) := do
  let (enc, s) ← getAttr d fuel x 0x3e false s
  match enc with
  | none => .exc
  | some a => do
      let (w, s) ← toNum d fuel (some a) s
      let t ← baseText float w.toNat buf
      .ok (t, s)

/-- The `switch` over the tag of the type. process.cc:520-638 -/
def taggedText (d : Sections) (fuel rounds : Nat) (mem : Mem) (float : List Byte → List Byte) (shows : BitVec 64 → Option DIE → IState → Res (List Byte × IState)) (buf : List Byte) (x : DIE)
    (s : IState) : Res (List Byte × IState) := do
  let r ← rawOf s x
  if r.type.tag = 0x24 then encodedText d fuel float buf x s
  else if r.type.tag = 0x10 ∨ r.type.tag = 0x0f then
    if buf.length < 8 then .ub
    else do
      let (y, s) ← typeOf d fuel x s
      let (y, s) ← removeCV d fuel rounds y s
      targetText d fuel mem shows (BitVec.ofNat 64 (num (buf.take 8))) y s
  else do
    let (n, s) ← dieName d fuel x s
    .ok (say "<unprintable type " ++ (n ++ say ">"), s)

/-- A null address is not looked at; a null type is dereferenced. process.cc:516-520 -/
def shownText (addr : BitVec 64) (type : Option DIE) (f : DIE → IState → Res (List Byte × IState)) (s : IState) : Res (List Byte × IState) :=
  if addr = 0 then .ok (say "(null)", s)
  else match type with
    | none => .ub
    | some x => f x s

/-- `operator << (os, RemoteValue(p, addr, isValue, type))`. The first number is for `attribute`, the second for the rounds of `removeCV`, the third for the pointers that are followed.
process.cc:481-640 -/
def valueText (d : Sections) (fuel rounds : Nat) (mem : Mem) (float : List Byte → List Byte) : Nat → BitVec 64 → Bool → Option DIE → IState → Res (List Byte × IState)
  | 0, _, _, _, _ => .ub
  | depth + 1, addr, isValue, type, s => do
      let (type, s) ← removeCV d fuel rounds type s
      let (buf, s) ← valueBuf d fuel mem addr isValue type s
      shownText addr type (taggedText d fuel rounds mem float (fun a t s => valueText d fuel rounds mem float depth a false t s) buf) s

/-! ### Locations -/

/-- What is known of the frame and the object. `caught` is what is written when showing a value throws: what was written before, and the message. -/
structure Ctx where
  mem : Mem
  env : Expr.Env
  reloc : BitVec 64
  ip : BitVec 64
  loc : List Byte
  loclists : List Byte
  addrs : Nat → Res (BitVec 64)
  float : List Byte → List Byte
  caught : List Byte

/-- Both kinds of exceptions leave the function. -/
def outRes {α : Type} : Out α → Res α
  | .ok a => .ok a
  | .exc => .exc
  | .stdexc => .exc
  | .ub => .ub
  | .abort => .abort

/-- Evaluating the expression in these bytes of a section. -/
def evalIn (c : Ctx) (sec : List Byte) (off endOff : Nat) : Res (BitVec 64 × Bool) := do
  let (st, v) ← outRes (eval c.env sec c.reloc [] 0 off endOff)
  .ok (v, st.isValue)

/-- The expression that was found in a list of locations; without one, 0. dwarfproc.cc:136-147, 191-198 -/
def evalFound (c : Ctx) (sec : List Byte) : Option (Nat × Nat) → Res (BitVec 64 × Bool)
  | none => .ok (0, false)
  | some (off, endOff) => evalIn c sec off endOff

/-- The base address of a unit, `uintmax_t(unit->root().attribute(DW_AT_low_pc))`. dwarfproc.cc:121-125 -/
def unitLow (d : Sections) (fuel : Nat) (u : Die.Unit) (s : IState) : Res (BitVec 64 × IState) := do
  let (a, s) ← rootAttr d fuel u 0x11 s
  toNum d fuel a s

/-- The location in a list. dwarfproc.cc:127-202 -/
def evalListed (c : Ctx) (u : Die.Unit) (low w : BitVec 64) : Res (BitVec 64 × Bool) :=
  if u.version ≥ 5 then do
    let f ← LocList.searchV5 c.loclists c.addrs u.addrlen c.reloc c.ip (c.loclists.length + 1) (c.reloc + low) w.toNat
    evalFound c c.loclists f
  else do
    let f ← LocList.searchV4 c.loc c.ip (c.reloc + low) (c.loc.length + 1) w.toNat
    evalFound c c.loc f

/-- `fbstack.eval(ap.p, attr, &ap.frame, location.elfReloc())` and then `fbstack.isValue`. dwarfproc.cc:112-211 -/
def evalAttr (d : Sections) (fuel : Nat) (c : Ctx) (a : Attr) (s : IState) : Res ((BitVec 64 × Bool) × IState) := do
  let (low, s) ← unitLow d fuel a.die.unit s
  let f ← a.form s
  if f = 0x17 then do
    let (w, s) ← toNum d fuel (some a) s
    let r ← evalListed c a.die.unit low w
    .ok (r, s)
  else if f = 0x0a ∨ f = 0x09 ∨ f = 0x18 then do
    let v ← a.value s
    match v with
    | .block len off => do
        let r ← evalIn c d.info off (off + len)
        .ok (r, s)
    | _ => .ub
  else .exc

/-! ### Arguments -/

/-- `try { os << RemoteValue(...) } catch`. What was found out before an exception is not recorded. process.cc:666-671 -/
def tried (caught : List Byte) (s : IState) (r : Res (List Byte × IState)) : Res (List Byte × IState) :=
  match r with
  | .exc => .ok (say "<" ++ caught ++ say ">", s)
  | r => r

/-- `DW_AT_const_value`. process.cc:673-675 -/
def constText (d : Sections) (fuel : Nat) (x : DIE) (s : IState) : Res (List Byte × IState) := do
  let (a, s) ← getAttr d fuel x 0x1c false s
  match a with
  | none => .ok ([], s)
  | some a => do
      let w ← toInt (some a) s
      .ok (say "=" ++ dec w.toInt, s)

/-- One argument. process.cc:653-678 -/
def argText (d : Sections) (fuel rounds depth : Nat) (c : Ctx) (x : DIE) (s : IState) : Res (List Byte × IState) := do
  let (name, s) ← dieName d fuel x s
  let (type, s) ← typeOf d fuel x s
  match type with
  | none => .ok (name, s)
  | some t => do
      let (loc, s) ← getAttr d fuel x 0x02 false s
      match loc with
      | some a => do
          let ((addr, isValue), s) ← evalAttr d fuel c a s
          let (v, s) ← tried c.caught s (valueText d fuel rounds c.mem c.float depth addr isValue (some t) s)
          .ok (name ++ (say "=" ++ v), s)
      | none => do
          let (v, s) ← constText d fuel x s
          .ok (name ++ v, s)

/-- `for (auto child : location.die().children())`; only formal parameters (5) are shown. process.cc:648-685 -/
def argsLoop (d : Sections) (fuel rounds depth : Nat) (c : Ctx) : Nat → Option DIE → DIE → Bool → IState → Res (List Byte × IState)
  | 0, _, _, _, _ => .ub
  | _ + 1, none, _, _, s => .ok ([], s)
  | n + 1, some k, parent, first, s => do
      let r ← rawOf s k
      if r.type.tag = 5 then do
        let (t, s) ← argText d fuel rounds depth c k s
        let (k', s) ← kidsNext k parent s
        let (ts, s) ← argsLoop d fuel rounds depth c n k' parent false s
        .ok ((if first then [] else say ", ") ++ (t ++ ts), s)
      else do
        let (k', s) ← kidsNext k parent s
        argsLoop d fuel rounds depth c n k' parent first s

/-- `operator << (os, ArgPrint)`, arguments being asked for. process.cc:642-688 -/
def argsText (d : Sections) (fuel rounds depth n : Nat) (c : Ctx) (f : Option DIE) (s : IState) : Res (List Byte × IState) :=
  match f with
  | none => .ok ([], s)
  | some x => do
      let (k, s) ← kidsBegin x s
      argsLoop d fuel rounds depth c n k x true s

end Pstack.Args
