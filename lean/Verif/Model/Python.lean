import Verif.Basic
/-
Model of the Python printer: python.tcc, python2.cc, python3.cc, and the version from a file name, python.cc.

The memory of the process is stopped: it does not change while it is printed. `process.io` is a `CacheReader`, whose `read` is short where there is no
memory (reader.cc:172-199). Text written to the stream is a list of characters, one for each byte.

The offsets of fields are those of CPython on x86_64. Those that are the same in the versions that can be used are given as numbers; those of frames, code
objects and thread states are in `Layout`.

What a type's printer does is a script: what it writes, how it changes the depth, what objects it prints, and then what it returns, or throws. The objects
printed by a script cannot change what the script does next, as what it prints is decided by memory, and by the depth when it is called.
-/
namespace Pstack.Python

abbrev Text := List Char

/-- The memory of the process. -/
abbrev Mem := Nat → Option Byte

/-- `n` bytes at `a`, if there are. -/
def bytesAt (mem : Mem) (a : Nat) : Nat → Option (List Byte)
  | 0 => some []
  | n + 1 =>
      match mem a, bytesAt mem (a + 1) n with
      | some b, some l => some (b :: l)
      | _, _ => none

/-- `Reader::readObj`: throws if the read is short. libpstack/reader.h:83-92 -/
def readObj (mem : Mem) (a n : Nat) : Res (List Byte) :=
  if n = 0 then .ok []
  else match bytesAt mem a n with
    | some l => .ok l
    | none => .exc

/-- The number a little endian machine keeps in these bytes. -/
def num : List Byte → Nat
  | [] => 0
  | b :: l => b.toNat + 256 * num l

/-- As a signed number of `w` bytes. -/
def signed (w : Nat) (n : Nat) : Int := if n < 2 ^ (8 * w - 1) then n else (n : Int) - 2 ^ (8 * w)

/-- A field of a structure that is in a buffer; outside of the buffer it is undefined behaviour. -/
def field (buf : List Byte) (off w : Nat) : Res Nat :=
  if off + w ≤ buf.length then .ok (num ((buf.drop off).take w)) else .ub

/-- An array of numbers of `w` bytes. -/
def numbers (w : Nat) : Nat → List Byte → List Nat
  | 0, _ => []
  | n + 1, l => num (l.take w) :: numbers w n (l.drop w)

/-- `readObj` of an array of `n` pointers. -/
def readPtrs (mem : Mem) (a n : Nat) : Res (List Nat) := do
  let l ← readObj mem a (8 * n)
  return numbers 8 n l

/-- `readObj` of one pointer. -/
def readPtr (mem : Mem) (a : Nat) : Res Nat := do
  let l ← readObj mem a 8
  return num l

def byteChar (b : Byte) : Char := Char.ofNat b.toNat

/-- The loop of `Reader::readString`; it is called with the number of addresses that are left. reader.cc:94-101 -/
def strLoop (mem : Mem) : Nat → Nat → Text
  | 0, _ => []
  | n + 1, a =>
      match mem a with
      | none => []
      | some b => if b = 0 then [] else byteChar b :: strLoop mem n (a + 1)

/-- `Reader::readString`, of the memory of a process: its size is 2^64-1. reader.cc:88-103, live.cc:24-26 -/
def readString (mem : Mem) (a : Nat) : Text :=
  if a = 0 then "(null)".toList else strLoop mem (W64 - 1 - a) a

def dec (z : Int) : Text := (toString z).toList

def hex (n : Nat) : Text := Nat.toDigits 16 n

/-! ### Scripts -/

inductive Act
  | say (t : Text)
  /-- `os << prefix()` -/
  | indent
  /-- `depth++` -/
  | deeper
  /-- `depth--` -/
  | shallower
  /-- `print(addr)` -/
  | obj (addr : Nat)
  deriving DecidableEq, Repr

structure Script (α : Type) where
  acts : List Act
  res : Res α

namespace Script

def bind {α β : Type} (s : Script α) (f : α → Script β) : Script β :=
  match s.res with
  | .ok a => ⟨s.acts ++ (f a).acts, (f a).res⟩
  | .exc => ⟨s.acts, .exc⟩
  | .ub => ⟨s.acts, .ub⟩
  | .abort => ⟨s.acts, .abort⟩

instance : Monad Script where
  pure a := ⟨[], .ok a⟩
  bind := bind

def lift {α : Type} (r : Res α) : Script α := ⟨[], r⟩

end Script

def act (a : Act) : Script Unit := ⟨[a], .ok ()⟩
def say (t : String) : Script Unit := act (.say t.toList)
def sayText (t : Text) : Script Unit := act (.say t)
open Script (lift)

/-! ### What the printer was compiled for, and given -/

/-- Sizes, and offsets of fields, that depend on the version of Python. -/
structure Layout where
  typeSize : Nat
  codeSize : Nat
  threadSize : Nat
  f_back : Nat
  f_code : Nat
  f_locals : Nat
  f_lasti : Nat
  f_localsplus : Nat
  co_argcount : Nat
  co_kwonlyargcount : Nat
  co_nlocals : Nat
  co_flags : Nat
  co_firstlineno : Nat
  co_varnames : Nat
  co_freevars : Nat
  co_cellvars : Nat
  co_filename : Nat
  co_name : Nat
  co_lnotab : Nat
  t_next : Nat
  t_frame : Nat
  t_id : Nat

/-- The printers for types. -/
inductive Kind
  | heap | string | float | module | list | type | long | frame | tuple | dict | bool | klass | instance | int
  deriving DecidableEq, Repr

/-- `dupdetect`. python.tcc:51, 61, 71, 80-87 with libpstack/python.h:55, python.tcc:107, 117, 135, 162, 239, python2.cc:32, 45, 81, 101, 112, python3.cc:132, 143 -/
def Kind.dupdetect : Kind → Bool
  | .string | .float | .long | .bool | .int => false
  | _ => true

structure Config where
  /-- Python 2 (`PyV == 2`). -/
  two : Bool
  lay : Layout
  /-- `printers`: the printer of the type at an address. -/
  printers : Nat → Option Kind
  /-- How the stream writes a double, given by its bits, with six digits. -/
  float : Nat → Text
  /-- `what()` of the exception that is caught. -/
  what : Text
  maxdepth : Int
  doargs : Bool
  dolocals : Bool
  /-- The offset of the thread id in a `pthread`, if it can be found. python.cc:107-140 -/
  tidOffset : Option Nat

/-! ### Strings, numbers and lines -/

/-- `readString<2>` and `readString<3>`. python2.cc:20-22, python3.cc:61-75 -/
def pyString (cfg : Config) (mem : Mem) (a : Nat) : Res Text :=
  if cfg.two then .ok (readString mem ((a + 36) % W64))
  else do
    let l ← readObj mem a 48
    let state ← field l 32 4
    if state.testBit 5 && state.testBit 6 && state.testBit 7 then return readString mem ((a + 48) % W64)
    else if state.testBit 5 && state.testBit 7 then return readString mem ((a + 72) % W64)
    else return readString mem ((a + 72) % W64)

/-- `intmax_t`'s values. -/
def fits64 (z : Int) : Bool := -(2 ^ 63) ≤ z && z < 2 ^ 63

/-- What a left shift of a signed number gives in C++20. -/
def wrap64 (z : Int) : Int := (z + 2 ^ 63) % 2 ^ 64 - 2 ^ 63

/-- The loop of `LongPrinter`. Shifts by 64 and more, and overflow, are undefined behaviour. python.tcc:125-127 -/
def longLoop : List Nat → Nat → Int → Res Int
  | [], _, v => .ok v
  | d :: l, i, v =>
      if 64 ≤ 30 * i then .ub
      else
        let v := v + wrap64 ((d : Int) * 2 ^ (30 * i))
        if fits64 v then longLoop l (i + 1) v else .ub

/-- The value printed by `LongPrinter`, from the object's bytes. python.tcc:121-129 -/
def longValue (buf : List Byte) : Res Int := do
  let s ← field buf 16 8
  let size := signed 8 s
  if size = -(2 ^ 63) then .ub
  else if 24 + 4 * size.natAbs ≤ buf.length then do
    let v ← longLoop (numbers 4 size.natAbs (buf.drop 24)) 0 0
    if size < 0 then (if fits64 (-v) then return -v else .ub) else return v
  else .ub

/-- `int`'s values. -/
def fits32 (z : Int) : Bool := -(2 ^ 31) ≤ z && z < 2 ^ 31

/-- The loop of `getLine`. A table of odd length is read past its end. python.tcc:19-32 -/
def lineLoop (two : Bool) (lasti : Int) : List Byte → Int → Int → Res Int
  | [], _, line => .ok line
  | [a], addr, line =>
      let addr := addr + a.toNat
      if ¬ fits32 addr then .ub else if addr > lasti then .ok line else .ub
  | a :: l :: rest, addr, line =>
      let addr := addr + a.toNat
      if ¬ fits32 addr then .ub
      else if addr > lasti then .ok line
      else
        let line := line + (if two then (l.toNat : Int) else l.toInt)
        if fits32 line then lineLoop two lasti rest addr line else .ub

/-- `getLine`. `first` and `table` are the code object's `co_firstlineno` and `co_lnotab`. python.tcc:10-33 -/
def getLine (cfg : Config) (mem : Mem) (first : Int) (table : Nat) (lasti : Int) : Res Int := do
  let l ← readObj mem table 24
  let s ← field l 16 8
  let size := signed 8 s
  if size < 0 then .ub
  else do
    let data ← readObj mem ((table + (if cfg.two then 36 else 32)) % W64) size.toNat
    lineLoop cfg.two lasti data 0 first

/-! ### The printers -/

/-- A type object. -/
structure TypeObj where
  name : Nat
  basicsize : Nat
  itemsize : Nat
  flags : Nat
  dictoffset : Int
  deriving DecidableEq, Repr

/-- Reading one. python.tcc:343-345 -/
def readType (cfg : Config) (mem : Mem) (a : Nat) : Res TypeObj := do
  let l ← readObj mem a cfg.lay.typeSize
  let name ← field l 24 8
  let basicsize ← field l 32 8
  let itemsize ← field l 40 8
  let flags ← field l 168 8
  let dictoffset ← field l 288 8
  return { name := name, basicsize := basicsize, itemsize := itemsize, flags := flags, dictoffset := signed 8 dictoffset }

/-- `HeapPrinter`. python.tcc:36-49 -/
def heapScript (mem : Mem) (ty : TypeObj) (remote : Nat) : Script Nat := do
  sayText (readString mem ty.name)
  if 0 < ty.dictoffset then do
    say "\n"
    act .deeper
    let d ← lift (readPtr mem ((remote + ty.dictoffset.toNat) % W64))
    act (.obj d)
    act .shallower
    say "\n"
    return 0
  else return 0

/-- Printing the members of a list or tuple, one to a line. python.tcc:97-101, 152-156 -/
def items : List Nat → Script Unit
  | [] => return ()
  | a :: l => do
      act .indent
      act (.obj a)
      say ",\n"
      items l

/-- `ListPrinter`. The array of a negative size is undefined behaviour. python.tcc:89-105 -/
def listScript (mem : Mem) (buf : List Byte) : Script Nat := do
  let s ← lift (field buf 16 8)
  let p ← lift (field buf 24 8)
  say "[ \n"
  let size := min (signed 8 s) 100
  if size < 0 then lift .ub
  else do
    let objects ← lift (readPtrs mem p size.toNat)
    act .deeper
    items objects
    act .shallower
    act .indent
    say "]"
    return 0

/-- `TuplePrinter`. python.tcc:138-160 -/
def tupleScript (mem : Mem) (buf : List Byte) (remote : Nat) : Script Nat := do
  let s ← lift (field buf 16 8)
  let size := min (signed 8 s) 100
  if size = 0 then do
    say "()"
    return 0
  else do
    say "( \n"
    if size < 0 then lift .ub
    else do
      let objects ← lift (readPtrs mem ((remote + 24) % W64) size.toNat)
      act .deeper
      items objects
      act .shallower
      act .indent
      say ")\n"
      return 0

/-- `DK_IXSIZE`. python3.cc:10-14 -/
def ixSize (size : Int) : Nat := if size ≤ 0xff then 1 else if size ≤ 0xffff then 2 else if size ≤ 0xffffffff then 4 else 8

/-- `readIndex`. It does not look at how much was read: what is missing is not initialised. python3.cc:80-90 -/
def readIndex (mem : Mem) (a w : Nat) : Res Int :=
  match bytesAt mem a w with
  | some l => .ok (signed w (num l))
  | none => .ub

/-- The loop of Python 3's `DictPrinter`; it is called with the number of places that are left. python3.cc:111-126 -/
def dictLoop (mem : Mem) (keys entries values w : Nat) : Nat → Nat → Script Unit
  | 0, _ => return ()
  | n + 1, i => do
      let index ← lift (readIndex mem ((keys + 40 + i * w) % W64) w)
      if index = -1 ∨ index = -2 then dictLoop mem keys entries values w n (i + 1)
      else do
        let e ← lift (readObj mem (((entries : Int) + index * 24) % (W64 : Int)).toNat 24)
        let key ← lift (field e 8 8)
        let value ← lift (if values ≠ 0 then readPtr mem (((values : Int) + index * 8) % (W64 : Int)).toNat else field e 16 8)
        act .indent
        act (.obj key)
        say " : "
        act (.obj value)
        say "\n"
        dictLoop mem keys entries values w n (i + 1)

/-- Python 3's `DictPrinter`. python3.cc:91-130 -/
def dict3Script (cfg : Config) (mem : Mem) (buf : List Byte) (depth : Int) : Script Nat := do
  let used ← lift (field buf 16 8)
  if used = 0 then do
    say "{}"
    return 0
  else if depth > cfg.maxdepth then do
    say "{ ... }"
    return 0
  else do
    let keys ← lift (field buf 32 8)
    let values ← lift (field buf 40 8)
    let l ← lift (readObj mem keys 40)
    let s ← lift (field l 8 8)
    let size := signed 8 s
    let w := ixSize size
    let entries := (((keys : Int) + 40 + size * w) % (W64 : Int)).toNat
    say "{\n"
    act .deeper
    dictLoop mem keys entries values w size.toNat 0
    act .shallower
    act .indent
    say "}"
    return 0

/-- The loop of Python 2's `DictPrinter`. python2.cc:64-75 -/
def dict2Loop (mem : Mem) (table : Nat) : Nat → Nat → Script Unit
  | 0, _ => return ()
  | n + 1, i => do
      let e ← lift (readObj mem ((table + i * 24) % W64) 24)
      let key ← lift (field e 8 8)
      let value ← lift (field e 16 8)
      if value = 0 then dict2Loop mem table n (i + 1)
      else if key ≠ 0 then do
        act .indent
        act (.obj key)
        say " : "
        act (.obj value)
        say "\n"
        dict2Loop mem table n (i + 1)
      else dict2Loop mem table n (i + 1)

/-- Python 2's `DictPrinter`. python2.cc:49-79 -/
def dict2Script (cfg : Config) (mem : Mem) (buf : List Byte) (depth : Int) : Script Nat := do
  let used ← lift (field buf 24 8)
  if used = 0 then do
    say "{}"
    return 0
  else if depth > cfg.maxdepth then do
    say "{ ... }"
    return 0
  else do
    let mask ← lift (field buf 32 8)
    let table ← lift (field buf 40 8)
    say "{\n"
    act .deeper
    dict2Loop mem table (signed 8 mask).toNat 0
    act .shallower
    act .indent
    say "}"
    return 0

/-- The loop of `printTupleVars`. python.tcc:183-189 -/
def varsLoop : List Nat → List Nat → Script Unit
  | n :: names, v :: vals => do
      act .indent
      act (.obj n)
      say "="
      act (.obj v)
      say "\n"
      varsLoop names vals
  | _, _ => return ()

/-- `printTupleVars`. A vector of a negative size throws. python.tcc:165-194 -/
def tupleVars (mem : Mem) (names values : Nat) (type : String) (maxvals : Int) : Script Int := do
  let l ← lift (readObj mem names 32)
  let s ← lift (field l 16 8)
  let n := min (signed 8 s) maxvals
  if n = 0 then return 0
  else if n < 0 then lift .exc
  else do
    let varnames ← lift (readPtrs mem ((names + 24) % W64) n.toNat)
    let varvals ← lift (readPtrs mem values n.toNat)
    act .indent
    say type
    say ":\n"
    act .deeper
    varsLoop varnames varvals
    act .shallower
    return n

/-- The positional arguments. python.tcc:478-482 -/
def argsLoop (total : Int) : List Nat → Int → Script Unit
  | [], _ => return ()
  | a :: l, i => do
      act (.obj a)
      if i < total - 1 then do
        say ", "
        argsLoop total l (i + 1)
      else argsLoop total l (i + 1)

/-- Arguments after the first ones. python.tcc:500-504 -/
def moreArgs : List Nat → Script Unit
  | [] => return ()
  | a :: l => do
      say ", "
      act (.obj a)
      moreArgs l

/-- python.tcc:517-522 -/
def kwLoop (cfg : Config) (mem : Mem) : List Nat → List Nat → Script Unit
  | n :: names, v :: vals => do
      say ", "
      let t ← lift (pyString cfg mem n)
      sayText t
      say "="
      act (.obj v)
      kwLoop cfg mem names vals
  | _, _ => return ()

/-- The address of a pointer in an array. -/
def slot (base : Nat) (i : Int) : Nat := (((base : Int) + i * 8) % (W64 : Int)).toNat

/-- `*args`, whose name and value are the `i`th. python.tcc:487-506 -/
def starScript (mem : Mem) (on : Bool) (names locals : Nat) (i : Int) : Script Unit :=
  if on then do
    let n ← lift (readPtr mem (slot names i))
    act (.obj n)
    let t ← lift (readPtr mem (slot locals i))
    let l ← lift (readObj mem t 24)
    let s ← lift (field l 16 8)
    if 0 ≤ signed 8 s ∧ signed 8 s < 128 then do
      let objects ← lift (readPtrs mem ((t + 24) % W64) (signed 8 s).toNat)
      moreArgs objects
    else return ()
  else return ()

/-- Arguments that are given only by name, from the `i`th on. python.tcc:509-523 -/
def kwScript (cfg : Config) (mem : Mem) (names locals : Nat) (i count : Int) : Script Unit :=
  if 0 < count ∧ count < 128 then do
    let kn ← lift (readPtrs mem (slot names i) count.toNat)
    let kv ← lift (readPtrs mem (slot locals i) count.toNat)
    kwLoop cfg mem kn kv
  else return ()

/-- `**kwargs`, whose name and value are the `i`th. python.tcc:526-533 -/
def dstarScript (cfg : Config) (mem : Mem) (on : Bool) (names locals : Nat) (i : Int) : Script Unit :=
  if on then do
    say ", "
    let n ← lift (readPtr mem (slot names i))
    let v ← lift (readPtr mem (slot locals i))
    let t ← lift (pyString cfg mem n)
    sayText t
    say "="
    act (.obj v)
  else return ()

/-- `printArguments`. `code` is the bytes of the code object. The array of a negative size is undefined behaviour. python.tcc:455-536 -/
def argsScript (cfg : Config) (mem : Mem) (code : List Byte) (remote : Nat) : Script Unit := do
  let flags ← lift (field code cfg.lay.co_flags 4)
  let ac ← lift (field code cfg.lay.co_argcount 4)
  let kc ← lift (if cfg.two then .ok 0 else field code cfg.lay.co_kwonlyargcount 4)
  let vn ← lift (field code cfg.lay.co_varnames 8)
  let argCount := signed 4 ac
  let kwCount := signed 4 kc
  let varargs := flags.testBit 2
  let varkw := flags.testBit 3
  let total := argCount + kwCount + (if varargs then 1 else 0) + (if varkw then 1 else 0)
  let names := (vn + 24) % W64
  let locals := (remote + cfg.lay.f_localsplus) % W64
  say "("
  if argCount < 0 then lift .ub
  else do
    let args ← lift (readPtrs mem locals argCount.toNat)
    argsLoop total args 0
    say "=("
    starScript mem varargs names locals (argCount + kwCount)
    kwScript cfg mem names locals argCount kwCount
    dstarScript cfg mem varkw names locals (argCount + kwCount + (if varargs then 1 else 0))
    say ")"

/-- The locals of a frame. python.tcc:211-226 -/
def localsScript (cfg : Config) (mem : Mem) (code : List Byte) (remote : Nat) : Script Unit := do
  let nl ← lift (field code cfg.lay.co_nlocals 4)
  let vn ← lift (field code cfg.lay.co_varnames 8)
  let cv ← lift (field code cfg.lay.co_cellvars 8)
  let fv ← lift (field code cfg.lay.co_freevars 8)
  let flocals := (remote + cfg.lay.f_localsplus) % W64
  act .deeper
  let _ ← tupleVars mem vn flocals "fastlocals" (signed 4 nl)
  let flocals := (((flocals : Int) + signed 4 nl * 8) % (W64 : Int)).toNat
  let c ← tupleVars mem cv flocals "cells" 1000000
  let flocals := (((flocals : Int) + c * 8) % (W64 : Int)).toNat
  let _ ← tupleVars mem fv flocals "freevars" 1000000
  act .shallower

/-- The first part of `FramePrinter`: the function, file and line of a frame. python.tcc:196-227 -/
def codeScript (cfg : Config) (mem : Mem) (buf : List Byte) (fcode remote : Nat) : Script Unit := do
  let lasti ← lift (field buf cfg.lay.f_lasti 4)
  let code ← lift (readObj mem fcode cfg.lay.codeSize)
  let first ← lift (field code cfg.lay.co_firstlineno 4)
  let table ← lift (field code cfg.lay.co_lnotab 8)
  let line ← lift (getLine cfg mem (signed 4 first) table (signed 4 lasti))
  let n ← lift (field code cfg.lay.co_name 8)
  let func ← lift (pyString cfg mem n)
  let f ← lift (field code cfg.lay.co_filename 8)
  let file ← lift (pyString cfg mem f)
  act .indent
  sayText func
  if cfg.doargs then argsScript cfg mem code remote else pure ()
  say " in "
  sayText file
  say ":"
  sayText (dec line)
  say "\n"
  if cfg.dolocals then localsScript cfg mem code remote else pure ()

/-- `FramePrinter`. python.tcc:195-237 -/
def frameScript (cfg : Config) (mem : Mem) (buf : List Byte) (remote : Nat) : Script Nat := do
  let fcode ← lift (field buf cfg.lay.f_code 8)
  let flocals ← lift (field buf cfg.lay.f_locals 8)
  let back ← lift (field buf cfg.lay.f_back 8)
  if fcode ≠ 0 then codeScript cfg mem buf fcode remote else pure ()
  if cfg.dolocals ∧ flocals ≠ 0 then do
    act .deeper
    act .indent
    say "locals:\n"
    act (.obj flocals)
    act .shallower
  else pure ()
  return back

/-- `printer->print`, for every printer. `buf` is the object's bytes, `depth` the depth when it is called. -/
def script (cfg : Config) (mem : Mem) (ty : TypeObj) (buf : List Byte) (remote : Nat) (depth : Int) : Kind → Script Nat
  | .heap => heapScript mem ty remote
  -- python.tcc:54-59
  | .string => do
      let t ← lift (pyString cfg mem remote)
      say "\""
      sayText t
      say "\""
      return 0
  -- python.tcc:64-69
  | .float => do
      let v ← lift (field buf 16 8)
      sayText (cfg.float v)
      return 0
  -- python.tcc:80-85
  | .module => do
      let d ← lift (field buf 16 8)
      act (.obj d)
      return 0
  | .list => listScript mem buf
  -- python.tcc:110-115
  | .type => do
      let n ← lift (field buf 24 8)
      say "type :\""
      sayText (readString mem n)
      say "\""
      return 0
  -- python.tcc:121-131
  | .long => do
      let v ← lift (longValue buf)
      sayText (dec v)
      return 0
  | .frame => frameScript cfg mem buf remote
  | .tuple => tupleScript mem buf remote
  | .dict => if cfg.two then dict2Script cfg mem buf depth else dict3Script cfg mem buf depth
  -- python2.cc:25-30, python3.cc:136-141
  | .bool => do
      let v ← lift (if cfg.two then field buf 16 8 else field buf 24 4)
      say (if v ≠ 0 then "True" else "False")
      return 0
  -- python2.cc:36-43
  | .klass => do
      let n ← lift (field buf 32 8)
      say "<class "
      act (.obj n)
      say ">"
      return 0
  -- python2.cc:85-99
  | .instance => do
      let c ← lift (field buf 16 8)
      let d ← lift (field buf 24 8)
      act .deeper
      say "\n"
      act .indent
      say "class: "
      act .deeper
      act (.obj c)
      act .shallower
      say "\n"
      act .indent
      say "dict: \n"
      act .deeper
      act (.obj d)
      act .shallower
      act .shallower
      return 0
  -- python2.cc:105-110
  | .int => do
      let v ← lift (field buf 16 8)
      sayText (dec (signed 8 v))
      return 0

/-! ### `PythonPrinter` -/

/-- What changes while objects are printed. `expanded` is not in the program: it notes, for the specification, each call of the printer of a type that detects
duplicates, with the object's address. libpstack/python.h:61-92 -/
structure St where
  /-- What was written to `os`. -/
  out : Text
  depth : Int
  visited : List Nat
  /-- `types`. An entry that could not be read remains, with contents that are not initialised (`none`). -/
  types : List (Nat × Option TypeObj)
  expanded : List Nat

/-- Writing to the stream. -/
def St.put (st : St) (t : Text) : St := { st with out := st.out ++ t }

/-- `prefix()`: 301 spaces are there. python.tcc:243-260 -/
def prefixText (depth : Int) : Text := List.replicate (depth * 4 % 301).toNat ' '

/-- The result of a round of the loop of `print`, up to the call of the printer. -/
inductive Round
  /-- `break` -/
  | stop (st : St)
  /-- An exception. -/
  | fail (st : St)
  /-- Undefined behaviour. -/
  | bad
  /-- The printer is called. -/
  | call (st : St) (s : Script Nat)

/-- Looking up the type of an object. python.tcc:337-346 -/
def typeOf (cfg : Config) (mem : Mem) (st : St) (t : Nat) : St × Res TypeObj :=
  match st.types.lookup t with
  | some (some ty) => (st, .ok ty)
  | some none => (st, .ub)
  | none =>
      let r := readType cfg mem t
      match r with
      | .ok ty => ({ st with types := (t, some ty) :: st.types }, .ok ty)
      | _ => ({ st with types := (t, none) :: st.types }, r)

/-- The printer for an object, or what is written when there is none. python.tcc:332-334, 348-362 -/
def printerOf (cfg : Config) (mem : Mem) (addr t : Nat) (ty : TypeObj) : Kind ⊕ Text :=
  match cfg.printers t with
  | some k => .inl k
  | none =>
      let tn := readString mem ty.name
      if tn = "NoneType".toList then .inr "None".toList
      else if ty.flags.testBit 9 then .inl .heap
      else .inr (dec addr ++ " unprintable-type-".toList ++ tn ++ "@0x".toList ++ hex t ++ "\n".toList)

/-- Reading the object, and calling its printer. The array of a negative size is undefined behaviour. python.tcc:371-386 -/
def expand (cfg : Config) (mem : Mem) (addr : Nat) (st : St) (ty : TypeObj) (k : Kind) (obSize : Int) : Round :=
  if ty.itemsize ≠ 0 ∧ obSize = -(2 ^ 63) then .bad
  else if ty.itemsize ≠ 0 ∧ 65536 < obSize.natAbs then .stop (st.put ("(skip massive object ".toList ++ dec obSize ++ ")".toList))
  else
    let full := signed 8 ((ty.basicsize + (if ty.itemsize ≠ 0 then ty.itemsize * obSize.natAbs else 0)) % W64)
    if full < 0 then .bad
    else match readObj mem addr full.toNat with
      | .ok buf => .call { st with expanded := if k.dupdetect then st.expanded ++ [addr] else st.expanded } (script cfg mem ty buf addr st.depth k)
      | .exc => .fail st
      | _ => .bad

/-- A round of the loop of `print`. python.tcc:330-387 -/
def round (cfg : Config) (mem : Mem) (addr : Nat) (st : St) : Round :=
  match readObj mem addr 24 with
  | .ok l =>
      let refcnt := num (l.take 8)
      let t := num ((l.drop 8).take 8)
      let obSize := signed 8 (num ((l.drop 16).take 8))
      let st := if refcnt = 0 then st.put "(dead object)".toList else st
      let r := typeOf cfg mem st t
      match r.2 with
      | .ok ty =>
          match printerOf cfg mem addr t ty with
          | .inr text => .stop (r.1.put text)
          | .inl k =>
              if k.dupdetect ∧ addr ∈ r.1.visited then .stop (r.1.put "(already seen)".toList)
              else expand cfg mem addr (if k.dupdetect then { r.1 with visited := addr :: r.1.visited } else r.1) ty k obSize
      | .exc => .fail r.1
      | _ => .bad
  | .exc => .fail st
  | _ => .bad

/-- Doing what a script says. `pr` is `print`. -/
def runActs (pr : Nat → St → Option (Res St)) : List Act → St → Option (Res St)
  | [], st => some (.ok st)
  | .say t :: l, st => runActs pr l (st.put t)
  | .indent :: l, st => runActs pr l (st.put (prefixText st.depth))
  | .deeper :: l, st => runActs pr l { st with depth := st.depth + 1 }
  | .shallower :: l, st => runActs pr l { st with depth := st.depth - 1 }
  | .obj a :: l, st =>
      match pr a st with
      | some (.ok st) => runActs pr l st
      | r => r

/-- An exception is caught. python.tcc:389-394 -/
def St.failed (cfg : Config) (st : St) : St := st.put ("(print failed:".toList ++ cfg.what ++ ")".toList)

/-- `print`, with `loop` for what is in its `try`. python.tcc:323-329, 395 -/
def printWith (loop : Nat → St → Option (Res St)) (addr : Nat) (st : St) : Option (Res St) :=
  if st.depth > 10000 then some (.ok (st.put "too deep\n".toList))
  else match loop addr { st with depth := st.depth + 1 } with
    | some (.ok st) => some (.ok { st with depth := st.depth - 1 })
    | r => r

/-- The loop of `print`, and what catches its exceptions. It is given so many rounds and calls inside of each other; `none` is when they are used up.
python.tcc:329-394 -/
def loop (cfg : Config) (mem : Mem) : Nat → Nat → St → Option (Res St)
  | 0, _, _ => none
  | n + 1, addr, st =>
      if addr = 0 then some (.ok st)
      else match round cfg mem addr st with
        | .stop st => some (.ok st)
        | .fail st => some (.ok (st.failed cfg))
        | .bad => some .ub
        | .call st s =>
            match runActs (printWith (loop cfg mem n)) s.acts st with
            | some (.ok st) =>
                match s.res with
                | .ok next => loop cfg mem n next st
                | .exc => some (.ok (st.failed cfg))
                | .ub => some .ub
                | .abort => some .abort
            | r => r

/-- `PythonPrinter::print`. python.tcc:321-396 -/
def print (cfg : Config) (mem : Mem) (n : Nat) (addr : Nat) (st : St) : Option (Res St) := printWith (loop cfg mem n) addr st

/-! ### Threads and interpreters -/

/-- What is read of a thread: its id, its frame and the next one. python.tcc:406, and the fields used in 408-419 -/
def threadFields (cfg : Config) (mem : Mem) (ptr : Nat) : Res (Nat × Nat × Nat) := do
  let l ← readObj mem ptr cfg.lay.threadSize
  let id ← field l cfg.lay.t_id 8
  let frame ← field l cfg.lay.t_frame 8
  let next ← field l cfg.lay.t_next 8
  return (id, frame, next)

/-- How a thread is announced. python.tcc:407-415 -/
def threadTitle (cfg : Config) (mem : Mem) (id : Nat) : Res Text :=
  match cfg.tidOffset with
  | some off =>
      if id ≠ 0 then do
        let l ← readObj mem ((id + off) % W64) 4
        return "pthread: 0x".toList ++ hex id ++ ", lwp ".toList ++ dec (signed 4 (num l))
      else return "anonymous thread".toList
  | none => return "anonymous thread".toList

/-- A result, and what comes with it. -/
def withNext (next : Nat) : Option (Res St) → Option (Res (St × Nat))
  | some (.ok st) => some (.ok (st, next))
  | some .exc => some .exc
  | some .ub => some .ub
  | some .abort => some .abort
  | none => none

/-- `printThread`: the next thread. python.tcc:402-420 -/
def printThread (cfg : Config) (mem : Mem) (n : Nat) (ptr : Nat) (st : St) : Option (Res (St × Nat)) :=
  match threadFields cfg mem ptr with
  | .ok f =>
      match threadTitle cfg mem f.1 with
      | .ok t => withNext f.2.2 (print cfg mem n f.2.1 ((st.put t).put "\n".toList))
      | .exc => some .exc
      | .ub => some .ub
      | .abort => some .abort
  | .exc => some .exc
  | .ub => some .ub
  | .abort => some .abort

/-- The loop over the threads of an interpreter. `threads` is the set of those seen; `k` is how many rounds there may be. python.tcc:440-447 -/
def threadLoop (cfg : Config) (mem : Mem) (n : Nat) : Nat → List Nat → Nat → St → Option (Res St)
  | 0, _, _, _ => none
  | k + 1, threads, tsp, st =>
      if tsp = 0 then some (.ok st)
      else match printThread cfg mem n tsp st with
        | some (.ok r) =>
            if r.2 ∈ threads then some (.ok r.1)
            else if 128 < (r.2 :: threads).length then some (.ok r.1)
            else threadLoop cfg mem n k (r.2 :: threads) r.2 (r.1.put "\n".toList)
        | some .exc => some .exc
        | some .ub => some .ub
        | some .abort => some .abort
        | none => none

/-- What is read of an interpreter: the next one, its first thread and its modules. python.tcc:430-437 -/
def interpFields (mem : Mem) (ptr : Nat) : Res (Nat × Nat × Nat) := do
  let l ← readPtrs mem ptr 3
  return (l.getD 0 0, l.getD 1 0, l.getD 2 0)

/-- `printInterp`: the next interpreter. python.tcc:425-453 -/
def printInterp (cfg : Config) (mem : Mem) (n : Nat) (ptr : Nat) (showModules : Bool) (st : St) : Option (Res (St × Nat)) :=
  match interpFields mem ptr with
  | .ok f =>
      match threadLoop cfg mem n n [f.2.1] f.2.1 (st.put ("---- interpreter @".toList ++ hex ptr ++ " -----\n".toList)) with
      | some (.ok st) =>
          if showModules then withNext f.1 (print cfg mem n f.2.2 (st.put "---- modules:\n".toList))
          else some (.ok (st, f.1))
      | some .exc => some .exc
      | some .ub => some .ub
      | some .abort => some .abort
      | none => none
  | .exc => some .exc
  | .ub => some .ub
  | .abort => some .abort

/-- The loop of `printInterpreters`. python.tcc:279-280 -/
def interpLoop (cfg : Config) (mem : Mem) (showModules : Bool) (n : Nat) : Nat → Nat → St → Option (Res St)
  | 0, _, _ => none
  | k + 1, ptr, st =>
      if ptr = 0 then some (.ok st)
      else match printInterp cfg mem n ptr showModules st with
        | some (.ok r) => interpLoop cfg mem showModules n k r.2 r.1
        | some .exc => some .exc
        | some .ub => some .ub
        | some .abort => some .abort
        | none => none

/-- `printInterpreters`. `head` is `interp_head`. python.tcc:274-281 -/
def printInterpreters (cfg : Config) (mem : Mem) (n : Nat) (head : Nat) (showModules : Bool) (st : St) : Option (Res St) :=
  match readPtr mem head with
  | .ok ptr => interpLoop cfg mem showModules n n ptr st
  | .exc => some .exc
  | .ub => some .ub
  | .abort => some .abort

/-! ### The version -/

/-- `std::string::find` of "python", from a place on. python.cc:35-36 -/
def findPython : Text → Nat → Option Nat
  | [], _ => none
  | c :: l, i => if "python".toList.isPrefixOf (c :: l) then some i else findPython l (i + 1)

/-- `rfind('/')`. -/
def lastSlash : Text → Nat → Option Nat
  | [], _ => none
  | c :: l, i => (lastSlash l (i + 1)).orElse fun _ => if c = '/' then some i else none

/-- `getPythonVersionFromFilename`. python.cc:33-60 -/
def version (name : Text) : Res (Nat × Nat) :=
  let start := (lastSlash name 0).getD 0
  match findPython (name.drop start) start with
  | none => .exc
  | some i =>
      match name[i + 6]?, name[i + 8]? with
      | some major, some minor => if major.isDigit ∧ minor.isDigit then .ok (major.toNat - 48, minor.toNat - 48) else .exc
      | _, _ => .exc

end Pstack.Python
