import Verif.Model.Python
/-
How CPython keeps its objects in memory, and what is to be printed of them.
-/
namespace Pstack.Spec
open Pstack.Python

/-! ### Memory -/

/-- The `w` bytes at `a` hold the number `x`. -/
def NumAt (mem : Mem) (a w x : Nat) : Prop := x < 256 ^ w ∧ ∀ i, i < w → mem (a + i) = some (BitVec.ofNat 8 (x / 256 ^ i))

/-- A signed number, in two's complement. -/
def IntAt (mem : Mem) (a w : Nat) (z : Int) : Prop :=
  -(2 ^ (8 * w - 1) : Int) ≤ z ∧ z < 2 ^ (8 * w - 1) ∧ NumAt mem a w (if 0 ≤ z then z else z + 2 ^ (8 * w)).toNat

/-- There is memory at these addresses. -/
def Present (mem : Mem) (a n : Nat) : Prop := ∀ i, i < n → ∃ b, mem (a + i) = some b

/-- A string that ends with a zero. -/
structure CStrAt (mem : Mem) (a : Nat) (s : List Byte) : Prop where
  notNull : a ≠ 0
  bytes : ∀ i (h : i < s.length), mem (a + i) = some s[i]
  noZero : ∀ b ∈ s, b ≠ 0
  zero : mem (a + s.length) = some 0
  fits : a + s.length + 1 < 2 ^ 64

/-- As text. -/
def textOf (s : List Byte) : Text := s.map fun b => Char.ofNat b.toNat

/-! ### Objects -/

structure TypeAt (cfg : Config) (mem : Mem) (t : Nat) (ty : TypeObj) : Prop where
  size : 296 ≤ cfg.lay.typeSize
  present : Present mem t cfg.lay.typeSize
  name : NumAt mem (t + 24) 8 ty.name
  basicsize : NumAt mem (t + 32) 8 ty.basicsize
  itemsize : NumAt mem (t + 40) 8 ty.itemsize
  flags : NumAt mem (t + 168) 8 ty.flags
  dictoffset : IntAt mem (t + 288) 8 ty.dictoffset

/-- The size of an object with so many items. -/
def objBytes (ty : TypeObj) (size : Int) : Nat := ty.basicsize + ty.itemsize * size.natAbs

/-- An object in use, of the type at `t`; `size` is its `ob_size` (what is there instead, for types without items). -/
structure ObjAt (cfg : Config) (mem : Mem) (a t : Nat) (ty : TypeObj) (size : Int) : Prop where
  notNull : a ≠ 0
  refcnt : ∃ r, r ≠ 0 ∧ NumAt mem a 8 r
  type : NumAt mem (a + 8) 8 t
  typeAt : TypeAt cfg mem t ty
  obSize : IntAt mem (a + 16) 8 size
  small : ty.itemsize ≠ 0 → size.natAbs ≤ 65536
  fits : objBytes ty size < 2 ^ 63
  present : Present mem a (objBytes ty size)

/-- An object for which there is a printer. -/
def OfKind (cfg : Config) (mem : Mem) (a : Nat) (k : Kind) (ty : TypeObj) (size : Int) : Prop :=
  ∃ t, ObjAt cfg mem a t ty size ∧ cfg.printers t = some k

/-- The object `None`. -/
def NoneAt (cfg : Config) (mem : Mem) (a : Nat) : Prop :=
  ∃ t ty size, ObjAt cfg mem a t ty size ∧ cfg.printers t = none ∧ CStrAt mem ty.name [0x4e#8, 0x6f#8, 0x6e#8, 0x65#8, 0x54#8, 0x79#8, 0x70#8, 0x65#8]

/-- The digits of a number, in base 2^30, the lowest first. -/
def pyDigits (n : Nat) : List Nat := if h : n = 0 then [] else n % 2 ^ 30 :: pyDigits (n / 2 ^ 30)
termination_by n
decreasing_by exact Nat.div_lt_self (by omega) (by decide)

/-- An object of type `int` (`long` in Python 2). -/
structure LongAt (cfg : Config) (mem : Mem) (a : Nat) (z : Int) : Prop where
  obj : ∃ ty, OfKind cfg mem a .long ty (if z < 0 then -((pyDigits z.natAbs).length : Int) else (pyDigits z.natAbs).length) ∧ ty.basicsize = 24 ∧ ty.itemsize = 4
  digits : ∀ i (h : i < (pyDigits z.natAbs).length), NumAt mem (a + 24 + 4 * i) 4 (pyDigits z.natAbs)[i]

/-- An object of type `bool`. -/
def BoolAt (cfg : Config) (mem : Mem) (a : Nat) (b : Bool) : Prop :=
  ∃ ty size, OfKind cfg mem a .bool ty size ∧ 32 ≤ objBytes ty size ∧
    if cfg.two then NumAt mem (a + 16) 8 (if b then 1 else 0) else NumAt mem (a + 24) 4 (if b then 1 else 0)

/-- An object of type `str`, all of whose characters are ASCII. In Python 3 it is compact, ascii and ready. -/
def StrAt (cfg : Config) (mem : Mem) (a : Nat) (s : List Byte) : Prop :=
  a + 48 < 2 ^ 64 ∧
  if cfg.two then CStrAt mem (a + 36) s
  else Present mem a 48 ∧ CStrAt mem (a + 48) s ∧ ∃ st, NumAt mem (a + 32) 4 st ∧ st.testBit 5 ∧ st.testBit 6 ∧ st.testBit 7

/-- The pointers in an array. -/
def PtrsAt (mem : Mem) (a : Nat) (l : List Nat) : Prop := ∀ i (h : i < l.length), NumAt mem (a + 8 * i) 8 l[i]

/-- An object of type `list`. -/
def ListAt (cfg : Config) (mem : Mem) (a : Nat) (l : List Nat) : Prop :=
  ∃ ty p, OfKind cfg mem a .list ty l.length ∧ ty.itemsize = 0 ∧ 40 ≤ ty.basicsize ∧ NumAt mem (a + 24) 8 p ∧ PtrsAt mem p l

/-- An object of type `tuple`. -/
def TupleAt (cfg : Config) (mem : Mem) (a : Nat) (l : List Nat) : Prop :=
  ∃ ty, OfKind cfg mem a .tuple ty l.length ∧ 24 ≤ ty.basicsize ∧ a + 24 < 2 ^ 64 ∧ PtrsAt mem (a + 24) l

/-! ### Dictionaries of Python 3 -/

/-- A place in the table of a dictionary: empty, left by a key that was deleted, or the number of an entry. -/
inductive Slot
  | empty | dummy | entry (n : Nat)
  deriving DecidableEq, Repr

def Slot.index : Slot → Int
  | .empty => -1
  | .dummy => -2
  | .entry n => n

/-- The bytes an index takes, in a table with so many places. -/
def indexBytes (size : Nat) : Nat := if size ≤ 255 then 1 else if size ≤ 65535 then 2 else if size ≤ 4294967295 then 4 else 8

def slotEntries : List Slot → List Nat
  | [] => []
  | .entry n :: l => n :: slotEntries l
  | _ :: l => slotEntries l

/-- The keys of a dictionary, at `p`: the table, and then the entries, each of which is a hash, a key and a value. -/
structure KeysAt (mem : Mem) (p : Nat) (slots : List Slot) (key value : Nat → Nat) : Prop where
  present : Present mem p 40
  size : IntAt mem (p + 8) 8 slots.length
  table : ∀ i (h : i < slots.length), IntAt mem (p + 40 + i * indexBytes slots.length) (indexBytes slots.length) slots[i].index
  entries : ∀ n ∈ slotEntries slots, let e := p + 40 + slots.length * indexBytes slots.length + n * 24
    e + 24 ≤ 2 ^ 64 ∧ Present mem e 24 ∧ NumAt mem (e + 8) 8 (key n) ∧ NumAt mem (e + 16) 8 (value n)
  fits : p + 40 + slots.length * indexBytes slots.length < 2 ^ 64

/-- An object of type `dict` with entries in it: its keys and values, in the order of the table. In a dictionary with a split table the values are elsewhere. -/
def DictAt (cfg : Config) (mem : Mem) (a : Nat) (pairs : List (Nat × Nat)) : Prop :=
  ∃ ty size used p values slots key value, OfKind cfg mem a .dict ty size ∧ 48 ≤ objBytes ty size ∧ NumAt mem (a + 16) 8 used ∧ used ≠ 0 ∧ NumAt mem (a + 32) 8 p ∧
    NumAt mem (a + 40) 8 values ∧ KeysAt mem p slots key value ∧
    if values = 0 then pairs = (slotEntries slots).map fun n => (key n, value n)
    else ∃ split : Nat → Nat, (∀ n ∈ slotEntries slots, values + n * 8 < 2 ^ 64 ∧ NumAt mem (values + n * 8) 8 (split n)) ∧
      pairs = (slotEntries slots).map fun n => (key n, split n)

/-- An object of type `dict` with nothing in it. -/
def EmptyDictAt (cfg : Config) (mem : Mem) (a : Nat) : Prop :=
  ∃ ty size, OfKind cfg mem a .dict ty size ∧ 48 ≤ objBytes ty size ∧ NumAt mem (a + 16) 8 0

/-- A module. -/
def ModuleAt (cfg : Config) (mem : Mem) (a d : Nat) : Prop :=
  ∃ ty size, OfKind cfg mem a .module ty size ∧ 24 ≤ objBytes ty size ∧ NumAt mem (a + 16) 8 d

/-- An object of a class of the program, with the class's name and the dictionary of its attributes. -/
def InstanceAt (cfg : Config) (mem : Mem) (a : Nat) (name : List Byte) (dict : Option Nat) : Prop :=
  ∃ t ty size, ObjAt cfg mem a t ty size ∧ cfg.printers t = none ∧ ty.flags.testBit 9 ∧ CStrAt mem ty.name name ∧
    name ≠ [0x4e#8, 0x6f#8, 0x6e#8, 0x65#8, 0x54#8, 0x79#8, 0x70#8, 0x65#8] ∧
    match dict with
    | some d => 0 < ty.dictoffset ∧ a + ty.dictoffset < 2 ^ 64 ∧ NumAt mem (a + ty.dictoffset.toNat) 8 d
    | none => ty.dictoffset = 0

/-- An object whose printer detects duplicates. -/
def ContainerAt (cfg : Config) (mem : Mem) (a : Nat) : Prop :=
  ∃ t ty size, ObjAt cfg mem a t ty size ∧
    ((∃ k, cfg.printers t = some k ∧ k ≠ .string ∧ k ≠ .float ∧ k ≠ .long ∧ k ≠ .bool ∧ k ≠ .int) ∨
     (cfg.printers t = none ∧ ty.flags.testBit 9 ∧ ∃ name, CStrAt mem ty.name name ∧ name ≠ [0x4e#8, 0x6f#8, 0x6e#8, 0x65#8, 0x54#8, 0x79#8, 0x70#8, 0x65#8]))

/-- An object of type `float`; `bits` is its value, as a double. -/
def FloatAt (cfg : Config) (mem : Mem) (a bits : Nat) : Prop :=
  ∃ ty size, OfKind cfg mem a .float ty size ∧ 24 ≤ objBytes ty size ∧ NumAt mem (a + 16) 8 bits

/-- A type, as an object. -/
def TypeObjAt (cfg : Config) (mem : Mem) (a : Nat) (name : List Byte) : Prop :=
  ∃ ty size p, OfKind cfg mem a .type ty size ∧ 32 ≤ objBytes ty size ∧ NumAt mem (a + 24) 8 p ∧ CStrAt mem p name

/-- An object of a type for which there is no printer, and that is not a class of the program. -/
def OtherAt (cfg : Config) (mem : Mem) (a t : Nat) (name : List Byte) : Prop :=
  ∃ ty size, ObjAt cfg mem a t ty size ∧ cfg.printers t = none ∧ ty.flags.testBit 9 = false ∧ CStrAt mem ty.name name ∧
    name ≠ [0x4e#8, 0x6f#8, 0x6e#8, 0x65#8, 0x54#8, 0x79#8, 0x70#8, 0x65#8]

/-! ### Python 2 -/

/-- An object of type `int` of Python 2. -/
def Int2At (cfg : Config) (mem : Mem) (a : Nat) (z : Int) : Prop :=
  ∃ ty size, OfKind cfg mem a .int ty size ∧ 24 ≤ objBytes ty size ∧ IntAt mem (a + 16) 8 z

/-- An old class, and its name. -/
def ClassAt (cfg : Config) (mem : Mem) (a name : Nat) : Prop :=
  ∃ ty size, OfKind cfg mem a .klass ty size ∧ 40 ≤ objBytes ty size ∧ NumAt mem (a + 32) 8 name

/-- An object of an old class: the class, and the dictionary of its attributes. -/
def OldInstanceAt (cfg : Config) (mem : Mem) (a c m : Nat) : Prop :=
  ∃ ty size, OfKind cfg mem a .instance ty size ∧ 32 ≤ objBytes ty size ∧ NumAt mem (a + 16) 8 c ∧ NumAt mem (a + 24) 8 m

/-- An object of type `dict` of Python 2: the places of its table, the last one included. Each is a hash, a key and a value; there is no value in places not in use. -/
def Dict2At (cfg : Config) (mem : Mem) (a : Nat) (slots : List (Option (Nat × Nat))) : Prop :=
  ∃ ty size used p, OfKind cfg mem a .dict ty size ∧ 48 ≤ objBytes ty size ∧ NumAt mem (a + 24) 8 used ∧ used ≠ 0 ∧ IntAt mem (a + 32) 8 (slots.length - 1) ∧ slots ≠ [] ∧
    NumAt mem (a + 40) 8 p ∧ p + 24 * slots.length ≤ 2 ^ 64 ∧ Present mem p (24 * slots.length) ∧
    ∀ i (h : i < slots.length),
      match slots[i] with
      | some (k, v) => k ≠ 0 ∧ v ≠ 0 ∧ NumAt mem (p + 24 * i + 8) 8 k ∧ NumAt mem (p + 24 * i + 16) 8 v
      | none => NumAt mem (p + 24 * i + 16) 8 0

/-- An object of type `dict` of Python 2 with nothing in it. -/
def EmptyDict2At (cfg : Config) (mem : Mem) (a : Nat) : Prop :=
  ∃ ty size, OfKind cfg mem a .dict ty size ∧ 48 ≤ objBytes ty size ∧ NumAt mem (a + 24) 8 0

/-! ### Lines -/

/-- What is in front of a line: four blanks for each level, starting again after 301. -/
def pyIndent (d : Nat) : Text := List.replicate (4 * d % 301) ' '

/-- A step of CPython's line table: the instruction offset grows by `da`, the line by `dl`. -/
structure LineStep where
  da : Nat
  dl : Int

/-- The pairs CPython 3 (to 3.9) writes for the step: `assemble_lnotab`. -/
def stepPairs3 (s : LineStep) : List (Nat × Int) :=
  let big := if 255 < s.da then s.da / 255 else 0
  let a := s.da - 255 * big
  let k : Int := if s.dl < 0 then -128 else 127
  if s.dl < -128 ∨ 127 < s.dl then
    let n := (s.dl.tdiv k).toNat
    List.replicate big (255, 0) ++ [(a, k)] ++ List.replicate (n - 1) (0, k) ++ [(0, s.dl - n * k)]
  else List.replicate big (255, 0) ++ [(a, s.dl)]

/-- Those CPython 2 writes; lines only grow. -/
def stepPairs2 (s : LineStep) : List (Nat × Int) :=
  let big := if 255 < s.da then s.da / 255 else 0
  let a := s.da - 255 * big
  if 255 < s.dl then
    let n := (s.dl / 255).toNat
    List.replicate big (255, 0) ++ [(a, 255)] ++ List.replicate (n - 1) (0, 255) ++ [(0, s.dl - n * 255)]
  else List.replicate big (255, 0) ++ [(a, s.dl)]

/-- As bytes. -/
def lineTable (two : Bool) (l : List LineStep) : List Byte :=
  (l.flatMap fun s => if two then stepPairs2 s else stepPairs3 s).flatMap fun p => [BitVec.ofNat 8 p.1, BitVec.ofInt 8 p.2]

/-- The line of the instruction at `i`: that of the last step at or before it. `a` and `line` are the offset and line before the steps. -/
def lineAt (i : Int) : Nat → Int → List LineStep → Int
  | _, line, [] => line
  | a, line, s :: l => if (a + s.da : Nat) ≤ i then lineAt i (a + s.da) (line + s.dl) l else line

/-- The lines are lines of a file, and offsets are small enough. -/
def StepsOk (two : Bool) : Nat → Int → List LineStep → Prop
  | a, line, [] => a < 2 ^ 31 ∧ 0 ≤ line ∧ line < 2 ^ 31
  | a, line, s :: l => (0 ≤ line ∧ line < 2 ^ 31) ∧ (two = true → 0 ≤ s.dl) ∧ StepsOk two (a + s.da) (line + s.dl) l

/-- A line table in memory. -/
def LinesAt (cfg : Config) (mem : Mem) (a : Nat) (l : List LineStep) : Prop :=
  let bytes := lineTable cfg.two l
  let p := a + (if cfg.two then 36 else 32)
  p < 2 ^ 64 ∧ Present mem a 24 ∧ IntAt mem (a + 16) 8 bytes.length ∧ ∀ i (h : i < bytes.length), mem (p + i) = some bytes[i]

/-! ### Frames -/

/-- A frame of a function: its name and file, the line it is at, and its caller. -/
structure FrameAt (cfg : Config) (mem : Mem) (a : Nat) (func file : List Byte) (line : Int) (back : Nat) : Prop where
  obj : ∃ ty size, OfKind cfg mem a .frame ty size ∧ cfg.lay.f_back + 8 ≤ objBytes ty size ∧ cfg.lay.f_code + 8 ≤ objBytes ty size ∧ cfg.lay.f_locals + 8 ≤ objBytes ty size ∧
    cfg.lay.f_lasti + 4 ≤ objBytes ty size ∧ Present mem (a + cfg.lay.f_locals) 8
  back : NumAt mem (a + cfg.lay.f_back) 8 back
  code : ∃ c steps lasti first table n f, c ≠ 0 ∧ NumAt mem (a + cfg.lay.f_code) 8 c ∧ IntAt mem (a + cfg.lay.f_lasti) 4 lasti ∧ Present mem c cfg.lay.codeSize ∧
    cfg.lay.co_firstlineno + 4 ≤ cfg.lay.codeSize ∧ cfg.lay.co_lnotab + 8 ≤ cfg.lay.codeSize ∧ cfg.lay.co_name + 8 ≤ cfg.lay.codeSize ∧ cfg.lay.co_filename + 8 ≤ cfg.lay.codeSize ∧
    IntAt mem (c + cfg.lay.co_firstlineno) 4 first ∧ NumAt mem (c + cfg.lay.co_lnotab) 8 table ∧ NumAt mem (c + cfg.lay.co_name) 8 n ∧ NumAt mem (c + cfg.lay.co_filename) 8 f ∧
    LinesAt cfg mem table steps ∧ StepsOk cfg.two 0 first steps ∧ line = lineAt lasti 0 first steps ∧ StrAt cfg mem n func ∧ StrAt cfg mem f file

/-- A frame, as it is written. -/
structure FrameInfo where
  addr : Nat
  func : List Byte
  file : List Byte
  line : Int

/-- The frames from `a` on: each is the caller of the one before it. -/
def FramesAt (cfg : Config) (mem : Mem) : Nat → List FrameInfo → Prop
  | a, [] => a = 0
  | a, f :: l => a = f.addr ∧ ∃ back, FrameAt cfg mem a f.func f.file f.line back ∧ FramesAt cfg mem back l

/-- A line for each. -/
def framesText (d : Nat) : List FrameInfo → Text
  | [] => []
  | f :: l => pyIndent d ++ textOf f.func ++ " in ".toList ++ textOf f.file ++ ":".toList ++ (toString f.line).toList ++ "\n".toList ++ framesText d l

/-! ### Arguments and locals -/

/-- The arguments of a call: the values of the named ones; the names and values of those that are given only by name; the name (an object) and the members of `*args`;
the name and value of `**kwargs`. -/
structure CallArgs where
  pos : List Nat
  kwonly : List (List Byte × Nat)
  star : Option (Nat × List Nat)
  dstar : Option (List Byte × Nat)

/-- The arguments of the frame at `a`, whose code object is at `c`: they are the first of its locals; their names are the first of the code's names. -/
structure ArgsAt (cfg : Config) (mem : Mem) (a c : Nat) (x : CallArgs) : Prop where
  sizes : cfg.lay.co_flags + 4 ≤ cfg.lay.codeSize ∧ cfg.lay.co_argcount + 4 ≤ cfg.lay.codeSize ∧ cfg.lay.co_kwonlyargcount + 4 ≤ cfg.lay.codeSize ∧ cfg.lay.co_varnames + 8 ≤ cfg.lay.codeSize
  flags : ∃ flags, NumAt mem (c + cfg.lay.co_flags) 4 flags ∧ flags.testBit 2 = x.star.isSome ∧ flags.testBit 3 = x.dstar.isSome
  argcount : IntAt mem (c + cfg.lay.co_argcount) 4 x.pos.length
  kwonlycount : if cfg.two then x.kwonly = [] else IntAt mem (c + cfg.lay.co_kwonlyargcount) 4 x.kwonly.length
  few : x.kwonly.length < 128
  fitsLocals : a + cfg.lay.f_localsplus + 8 * (x.pos.length + x.kwonly.length + 2) < 2 ^ 64
  pos : PtrsAt mem (a + cfg.lay.f_localsplus) x.pos
  names : ∃ vn, NumAt mem (c + cfg.lay.co_varnames) 8 vn ∧ vn + 24 + 8 * (x.pos.length + x.kwonly.length + 2) < 2 ^ 64 ∧
    (∀ i (h : i < x.kwonly.length), ∃ n, NumAt mem (vn + 24 + 8 * (x.pos.length + i)) 8 n ∧ StrAt cfg mem n x.kwonly[i].1 ∧
      NumAt mem (a + cfg.lay.f_localsplus + 8 * (x.pos.length + i)) 8 x.kwonly[i].2) ∧
    (∀ n l, x.star = some (n, l) → NumAt mem (vn + 24 + 8 * (x.pos.length + x.kwonly.length)) 8 n ∧ l.length < 128 ∧
      ∃ t, NumAt mem (a + cfg.lay.f_localsplus + 8 * (x.pos.length + x.kwonly.length)) 8 t ∧ t + 24 < 2 ^ 64 ∧ Present mem t 24 ∧ IntAt mem (t + 16) 8 l.length ∧ PtrsAt mem (t + 24) l) ∧
    (∀ s v, x.dstar = some (s, v) → let i := x.pos.length + x.kwonly.length + (if x.star.isSome then 1 else 0)
      ∃ n, NumAt mem (vn + 24 + 8 * i) 8 n ∧ StrAt cfg mem n s ∧ NumAt mem (a + cfg.lay.f_localsplus + 8 * i) 8 v)

/-- A tuple of names. -/
def NamesAt (mem : Mem) (p : Nat) (names : List Nat) : Prop := p + 24 < 2 ^ 64 ∧ Present mem p 32 ∧ IntAt mem (p + 16) 8 names.length ∧ PtrsAt mem (p + 24) names

/-- Names and values of variables: those of the function, those its inner functions use, and those of outer functions. -/
structure LocalVars where
  fast : List (Nat × Nat)
  cells : List (Nat × Nat)
  free : List (Nat × Nat)

/-- The variables of the frame at `a`, whose code object is at `c`. -/
structure VarsAt (cfg : Config) (mem : Mem) (a c : Nat) (x : LocalVars) : Prop where
  sizes : cfg.lay.co_nlocals + 4 ≤ cfg.lay.codeSize ∧ cfg.lay.co_varnames + 8 ≤ cfg.lay.codeSize ∧ cfg.lay.co_cellvars + 8 ≤ cfg.lay.codeSize ∧ cfg.lay.co_freevars + 8 ≤ cfg.lay.codeSize
  few : x.cells.length ≤ 1000000 ∧ x.free.length ≤ 1000000
  nlocals : IntAt mem (c + cfg.lay.co_nlocals) 4 x.fast.length
  fits : a + cfg.lay.f_localsplus + 8 * (x.fast.length + x.cells.length + x.free.length) < 2 ^ 64
  fast : ∃ vn, NumAt mem (c + cfg.lay.co_varnames) 8 vn ∧ NamesAt mem vn (x.fast.map (·.1))
  cells : ∃ cv, NumAt mem (c + cfg.lay.co_cellvars) 8 cv ∧ NamesAt mem cv (x.cells.map (·.1))
  free : ∃ fv, NumAt mem (c + cfg.lay.co_freevars) 8 fv ∧ NamesAt mem fv (x.free.map (·.1))
  values : PtrsAt mem (a + cfg.lay.f_localsplus) (x.fast.map (·.2) ++ x.cells.map (·.2) ++ x.free.map (·.2))

/-- A frame: function, file and line, its arguments and variables, its dictionary of locals (0 if it has none), and its caller. -/
structure Frame where
  func : List Byte
  file : List Byte
  line : Int
  args : CallArgs
  vars : LocalVars
  locals : Nat
  back : Nat

structure FullFrameAt (cfg : Config) (mem : Mem) (a : Nat) (f : Frame) : Prop where
  frame : FrameAt cfg mem a f.func f.file f.line f.back
  locals : NumAt mem (a + cfg.lay.f_locals) 8 f.locals
  args : cfg.doargs = true → ∀ c, NumAt mem (a + cfg.lay.f_code) 8 c → ArgsAt cfg mem a c f.args
  vars : cfg.dolocals = true → ∀ c, NumAt mem (a + cfg.lay.f_code) 8 c → VarsAt cfg mem a c f.vars

/-- Parts of a line: text, the blanks at its start, an object. -/
inductive PyPiece
  | text (t : Text)
  | line
  | obj (a : Nat)

/-- Named arguments, with commas between them, and after the last one as well if other arguments follow. -/
def posPieces (more : Bool) : List Nat → List PyPiece
  | [] => []
  | [a] => if more then [.obj a, .text ", ".toList] else [.obj a]
  | a :: l => .obj a :: .text ", ".toList :: posPieces more l

/-- `*args`: its name and its members. -/
def starPieces : Option (Nat × List Nat) → List PyPiece
  | some (n, l) => .obj n :: l.flatMap fun a => [.text ", ".toList, .obj a]
  | none => []

/-- An argument with its name. -/
def namedPieces (k : List Byte × Nat) : List PyPiece := [.text ", ".toList, .text (textOf k.1), .text "=".toList, .obj k.2]

/-- How arguments are written. -/
def argPieces (x : CallArgs) : List PyPiece :=
  [.text "(".toList] ++ posPieces (x.kwonly ≠ [] ∨ x.star.isSome ∨ x.dstar.isSome) x.pos ++ [.text "=(".toList] ++ starPieces x.star ++ x.kwonly.flatMap namedPieces ++
  x.dstar.toList.flatMap namedPieces ++ [.text ")".toList]

/-- The line of a frame. -/
def framePieces (doargs : Bool) (f : Frame) : List PyPiece :=
  [.line, .text (textOf f.func)] ++ (if doargs then argPieces f.args else []) ++
  [.text " in ".toList, .text (textOf f.file), .text ":".toList, .text (toString f.line).toList, .text "\n".toList]

/-- The variables, by kind. -/
def varSections (x : LocalVars) : List (Text × List (Nat × Nat)) := [("fastlocals".toList, x.fast), ("cells".toList, x.cells), ("freevars".toList, x.free)]

/-! ### What is to be written -/

/-- Things to be written. -/
inductive Todo
  /-- An object; 0 if there is none. -/
  | obj (a : Nat)
  /-- The members of a list, each on its own line. -/
  | items (l : List Nat)
  /-- The keys and values of a dictionary, each on its own line. -/
  | pairs (l : List (Nat × Nat))
  /-- Parts of lines. -/
  | pieces (l : List PyPiece)
  /-- Names and values, each on its own line. -/
  | vars (l : List (Nat × Nat))
  /-- Kinds of variables, those of each below its name; if there are none, neither is the name. -/
  | sections (l : List (Text × List (Nat × Nat)))

/-- `Renders cfg mem d seen x t seen'`: at level `d`, when the containers in `seen` have been written already, `x` is written as `t`; then those of `seen'` have
been. Containers are written when they are first met. Of lists and tuples no more than a hundred members are written, and no dictionaries at levels over
`maxdepth`, nor objects of any kind at levels over 10000. -/
inductive Renders (cfg : Config) (mem : Mem) : Nat → List Nat → Todo → Text → List Nat → Prop
  | null (d S) : d ≤ 10000 → Renders cfg mem d S (.obj 0) [] S
  | deep (d S a) : 10000 < d → Renders cfg mem d S (.obj a) "too deep\n".toList S
  | pyNone (d S a) : d ≤ 10000 → NoneAt cfg mem a → Renders cfg mem d S (.obj a) "None".toList S
  | bool (d S a b) : d ≤ 10000 → BoolAt cfg mem a b → Renders cfg mem d S (.obj a) (if b then "True" else "False").toList S
  | int (d S a z) : d ≤ 10000 → LongAt cfg mem a z → -(2 ^ 63) < z → z < 2 ^ 63 → Renders cfg mem d S (.obj a) (toString z).toList S
  | str (d S a s) : d ≤ 10000 → (∃ ty size, OfKind cfg mem a .string ty size) → StrAt cfg mem a s → Renders cfg mem d S (.obj a) (['"'] ++ textOf s ++ ['"']) S
  | again (d S a) : d ≤ 10000 → ContainerAt cfg mem a → a ∈ S → Renders cfg mem d S (.obj a) "(already seen)".toList S
  | list (d S a l t S') : d ≤ 10000 → ListAt cfg mem a l → a ∉ S → Renders cfg mem (d + 2) (a :: S) (.items (l.take 100)) t S' →
      Renders cfg mem d S (.obj a) ("[ \n".toList ++ t ++ pyIndent (d + 1) ++ "]".toList) S'
  | unit (d S a) : d ≤ 10000 → TupleAt cfg mem a [] → a ∉ S → Renders cfg mem d S (.obj a) "()".toList (a :: S)
  | tuple (d S a l t S') : d ≤ 10000 → TupleAt cfg mem a l → l ≠ [] → a ∉ S → Renders cfg mem (d + 2) (a :: S) (.items (l.take 100)) t S' →
      Renders cfg mem d S (.obj a) ("( \n".toList ++ t ++ pyIndent (d + 1) ++ ")\n".toList) S'
  | emptyDict (d S a) : d ≤ 10000 → cfg.two = false → EmptyDictAt cfg mem a → a ∉ S → Renders cfg mem d S (.obj a) "{}".toList (a :: S)
  | cutDict (d S a l) : d ≤ 10000 → cfg.two = false → DictAt cfg mem a l → a ∉ S → cfg.maxdepth < (d + 1 : Nat) → Renders cfg mem d S (.obj a) "{ ... }".toList (a :: S)
  | dict (d S a l t S') : d ≤ 10000 → cfg.two = false → DictAt cfg mem a l → a ∉ S → (d + 1 : Nat) ≤ cfg.maxdepth → Renders cfg mem (d + 2) (a :: S) (.pairs l) t S' →
      Renders cfg mem d S (.obj a) ("{\n".toList ++ t ++ pyIndent (d + 1) ++ "}".toList) S'
  | module (d S a m t S') : d ≤ 10000 → ModuleAt cfg mem a m → a ∉ S → Renders cfg mem (d + 1) (a :: S) (.obj m) t S' → Renders cfg mem d S (.obj a) t S'
  | bare (d S a name) : d ≤ 10000 → InstanceAt cfg mem a name none → a ∉ S → Renders cfg mem d S (.obj a) (textOf name) (a :: S)
  | instance (d S a name m t S') : d ≤ 10000 → InstanceAt cfg mem a name (some m) → a ∉ S → Renders cfg mem (d + 2) (a :: S) (.obj m) t S' →
      Renders cfg mem d S (.obj a) (textOf name ++ "\n".toList ++ t ++ "\n".toList) S'
  | itemsNil (d S) : Renders cfg mem d S (.items []) [] S
  | itemsCons (d S a l t S' t' S'') : Renders cfg mem d S (.obj a) t S' → Renders cfg mem d S' (.items l) t' S'' →
      Renders cfg mem d S (.items (a :: l)) (pyIndent d ++ t ++ ",\n".toList ++ t') S''
  | pairsNil (d S) : Renders cfg mem d S (.pairs []) [] S
  | pairsCons (d S k v l t S' t' S'' t'' S''') : Renders cfg mem d S (.obj k) t S' → Renders cfg mem d S' (.obj v) t' S'' → Renders cfg mem d S'' (.pairs l) t'' S''' →
      Renders cfg mem d S (.pairs ((k, v) :: l)) (pyIndent d ++ t ++ " : ".toList ++ t' ++ "\n".toList ++ t'') S'''
  | float (d S a v) : d ≤ 10000 → FloatAt cfg mem a v → Renders cfg mem d S (.obj a) (cfg.float v) S
  | type (d S a name) : d ≤ 10000 → TypeObjAt cfg mem a name → a ∉ S → Renders cfg mem d S (.obj a) ("type :\"".toList ++ textOf name ++ ['"']) (a :: S)
  | other (d S a t name) : d ≤ 10000 → OtherAt cfg mem a t name →
      Renders cfg mem d S (.obj a) ((toString (a : Int)).toList ++ " unprintable-type-".toList ++ textOf name ++ "@0x".toList ++ Nat.toDigits 16 t ++ "\n".toList) S
  | int2 (d S a z) : d ≤ 10000 → Int2At cfg mem a z → Renders cfg mem d S (.obj a) (toString z).toList S
  | klass (d S a n t S') : d ≤ 10000 → ClassAt cfg mem a n → a ∉ S → Renders cfg mem (d + 1) (a :: S) (.obj n) t S' →
      Renders cfg mem d S (.obj a) ("<class ".toList ++ t ++ ">".toList) S'
  | oldInstance (d S a c m t S' t' S'') : d ≤ 10000 → OldInstanceAt cfg mem a c m → a ∉ S → Renders cfg mem (d + 3) (a :: S) (.obj c) t S' → Renders cfg mem (d + 3) S' (.obj m) t' S'' →
      Renders cfg mem d S (.obj a) ("\n".toList ++ pyIndent (d + 2) ++ "class: ".toList ++ t ++ "\n".toList ++ pyIndent (d + 2) ++ "dict: \n".toList ++ t') S''
  | emptyDict2 (d S a) : d ≤ 10000 → cfg.two = true → EmptyDict2At cfg mem a → a ∉ S → Renders cfg mem d S (.obj a) "{}".toList (a :: S)
  | cutDict2 (d S a l) : d ≤ 10000 → cfg.two = true → Dict2At cfg mem a l → a ∉ S → cfg.maxdepth < (d + 1 : Nat) → Renders cfg mem d S (.obj a) "{ ... }".toList (a :: S)
  | dict2 (d S a l t S') : d ≤ 10000 → cfg.two = true → Dict2At cfg mem a l → a ∉ S → (d + 1 : Nat) ≤ cfg.maxdepth → Renders cfg mem (d + 2) (a :: S) (.pairs (l.dropLast.filterMap id)) t S' →
      Renders cfg mem d S (.obj a) ("{\n".toList ++ t ++ pyIndent (d + 1) ++ "}".toList) S'
  | frame (d S a f t1 S1 t2 S2 t3 S3 t4 S4) : d ≤ 10000 → FullFrameAt cfg mem a f → a ∉ S → Renders cfg mem (d + 1) (a :: S) (.pieces (framePieces cfg.doargs f)) t1 S1 →
      Renders cfg mem (d + 2) S1 (.sections (if cfg.dolocals then varSections f.vars else [])) t2 S2 →
      Renders cfg mem (d + 2) S2 (.pieces (if cfg.dolocals ∧ f.locals ≠ 0 then [.line, .text "locals:\n".toList, .obj f.locals] else [])) t3 S3 →
      Renders cfg mem d S3 (.obj f.back) t4 S4 → Renders cfg mem d S (.obj a) (t1 ++ t2 ++ t3 ++ t4) S4
  | piecesNil (d S) : Renders cfg mem d S (.pieces []) [] S
  | piecesText (d S x l t S') : Renders cfg mem d S (.pieces l) t S' → Renders cfg mem d S (.pieces (.text x :: l)) (x ++ t) S'
  | piecesLine (d S l t S') : Renders cfg mem d S (.pieces l) t S' → Renders cfg mem d S (.pieces (.line :: l)) (pyIndent d ++ t) S'
  | piecesObj (d S a l t S' t' S'') : Renders cfg mem d S (.obj a) t S' → Renders cfg mem d S' (.pieces l) t' S'' → Renders cfg mem d S (.pieces (.obj a :: l)) (t ++ t') S''
  | varsNil (d S) : Renders cfg mem d S (.vars []) [] S
  | varsCons (d S n v l t S1 t' S2 t'' S3) : Renders cfg mem d S (.obj n) t S1 → Renders cfg mem d S1 (.obj v) t' S2 → Renders cfg mem d S2 (.vars l) t'' S3 →
      Renders cfg mem d S (.vars ((n, v) :: l)) (pyIndent d ++ t ++ "=".toList ++ t' ++ "\n".toList ++ t'') S3
  | sectionsNil (d S) : Renders cfg mem d S (.sections []) [] S
  | sectionsNone (d S name r t S') : Renders cfg mem d S (.sections r) t S' → Renders cfg mem d S (.sections ((name, []) :: r)) t S'
  | sectionsCons (d S name l r t S' t' S'') : l ≠ [] → Renders cfg mem (d + 1) S (.vars l) t S' → Renders cfg mem d S' (.sections r) t' S'' →
      Renders cfg mem d S (.sections ((name, l) :: r)) (pyIndent d ++ name ++ ":\n".toList ++ t ++ t') S''

/-! ### Threads -/

/-- A thread of an interpreter, with its frames, and how it is announced. -/
structure ThreadInfo where
  addr : Nat
  title : Text
  frames : List FrameInfo

/-- How a thread is announced: with its id and that of its task, if they are known. -/
def TitleOf (cfg : Config) (mem : Mem) (id : Nat) (title : Text) : Prop :=
  (id = 0 ∧ title = "anonymous thread".toList) ∨ (cfg.tidOffset = none ∧ title = "anonymous thread".toList) ∨
  (∃ off tid, id ≠ 0 ∧ cfg.tidOffset = some off ∧ id + off < 2 ^ 64 ∧ IntAt mem (id + off) 4 tid ∧
    title = "pthread: 0x".toList ++ Nat.toDigits 16 id ++ ", lwp ".toList ++ (toString tid).toList)

structure ThreadAt (cfg : Config) (mem : Mem) (th : ThreadInfo) (next : Nat) : Prop where
  notNull : th.addr ≠ 0
  sizes : cfg.lay.t_id + 8 ≤ cfg.lay.threadSize ∧ cfg.lay.t_frame + 8 ≤ cfg.lay.threadSize ∧ cfg.lay.t_next + 8 ≤ cfg.lay.threadSize
  present : Present mem th.addr cfg.lay.threadSize
  id : ∃ id, NumAt mem (th.addr + cfg.lay.t_id) 8 id ∧ TitleOf cfg mem id th.title
  frame : ∃ f, NumAt mem (th.addr + cfg.lay.t_frame) 8 f ∧ FramesAt cfg mem f th.frames
  next : NumAt mem (th.addr + cfg.lay.t_next) 8 next

/-- The threads from `a` on, up to `z`. -/
def ThreadsAt (cfg : Config) (mem : Mem) : Nat → List ThreadInfo → Nat → Prop
  | a, [], z => a = z
  | a, th :: l, z => a = th.addr ∧ ∃ next, ThreadAt cfg mem th next ∧ ThreadsAt cfg mem next l z

def threadText (d : Nat) (th : ThreadInfo) : Text := th.title ++ "\n".toList ++ framesText d th.frames

/-- Threads with an empty line after each; not after the last one if the list of them was left early. -/
def threadsText (d : Nat) (early : Bool) : List ThreadInfo → Text
  | [] => []
  | [th] => threadText d th ++ (if early then [] else "\n".toList)
  | th :: l => threadText d th ++ "\n".toList ++ threadsText d early l

end Pstack.Spec

namespace Pstack.Spec
open Pstack.Python

/-! ### Interpreters -/

/-- An interpreter: its threads. `early` says that the list of them was left before its end: it came back to a thread listed before, or there are more than 128. -/
structure InterpInfo where
  addr : Nat
  threads : List ThreadInfo
  early : Bool

/-- The threads that are to be listed: all of them, distinct, if there are no more than 127; or up to where they repeat; or the first 128. -/
structure ThreadsOf (cfg : Config) (mem : Mem) (head : Nat) (l : List ThreadInfo) (early : Bool) : Prop where
  chain : ∃ z, ThreadsAt cfg mem head l z ∧
    ((early = false ∧ z = 0 ∧ l.length ≤ 127) ∨ (early = true ∧ z ∈ l.map (·.addr) ∧ l.length ≤ 128) ∨ (early = true ∧ l.length = 128))
  distinct : (l.map (·.addr)).Nodup

/-- The interpreter at `x.addr`; `next` is the one after it. -/
structure InterpAt (cfg : Config) (mem : Mem) (x : InterpInfo) (next : Nat) : Prop where
  notNull : x.addr ≠ 0
  head : ∃ head modules, PtrsAt mem x.addr [next, head, modules] ∧ ThreadsOf cfg mem head x.threads x.early

def InterpsAt (cfg : Config) (mem : Mem) : Nat → List InterpInfo → Prop
  | a, [] => a = 0
  | a, x :: l => a = x.addr ∧ ∃ next, InterpAt cfg mem x next ∧ InterpsAt cfg mem next l

/-- The thread at `a`: how it is announced, its innermost frame and the thread after it. -/
structure ThreadHead (cfg : Config) (mem : Mem) (a : Nat) (title : Text) (frame next : Nat) : Prop where
  notNull : a ≠ 0
  sizes : cfg.lay.t_id + 8 ≤ cfg.lay.threadSize ∧ cfg.lay.t_frame + 8 ≤ cfg.lay.threadSize ∧ cfg.lay.t_next + 8 ≤ cfg.lay.threadSize
  present : Present mem a cfg.lay.threadSize
  id : ∃ id, NumAt mem (a + cfg.lay.t_id) 8 id ∧ TitleOf cfg mem id title
  frame : NumAt mem (a + cfg.lay.t_frame) 8 frame
  next : NumAt mem (a + cfg.lay.t_next) 8 next

/-- `ThreadsList cfg mem T a S t S'`: the threads from `a` on are written as `t`. `T` are the threads listed before, and `a`; when one of them comes after a thread, or there are 128, the
list ends. `S` and `S'` are the objects written before, and after. -/
inductive ThreadsList (cfg : Config) (mem : Mem) : List Nat → Nat → List Nat → Text → List Nat → Prop
  | none (T S) : ThreadsList cfg mem T 0 S [] S
  | last (T a S title frame next t S') : ThreadHead cfg mem a title frame next → Renders cfg mem 0 S (.obj frame) t S' → next ∈ T ∨ T.length = 128 →
      ThreadsList cfg mem T a S (title ++ "\n".toList ++ t) S'
  | more (T a S title frame next t S' t' S'') : ThreadHead cfg mem a title frame next → Renders cfg mem 0 S (.obj frame) t S' → next ∉ T → T.length < 128 →
      ThreadsList cfg mem (next :: T) next S' t' S'' → ThreadsList cfg mem T a S (title ++ "\n".toList ++ t ++ "\n".toList ++ t') S''

/-- The interpreters from `a` on, and their modules if these are asked for, are written as `t`. -/
inductive InterpsList (cfg : Config) (mem : Mem) (modules : Bool) : Nat → List Nat → Text → Prop
  | none (S) : InterpsList cfg mem modules 0 S []
  | cons (a next head m S t S' tm S'' t') : a ≠ 0 → PtrsAt mem a [next, head, m] → ThreadsList cfg mem [head] head S t S' →
      (modules = true → ∃ x, tm = "---- modules:\n".toList ++ x ∧ Renders cfg mem 0 S' (.obj m) x S'') → (modules = false → tm = [] ∧ S'' = S') →
      InterpsList cfg mem modules next S'' t' →
      InterpsList cfg mem modules a S ("---- interpreter @".toList ++ Nat.toDigits 16 a ++ " -----\n".toList ++ t ++ tm ++ t')

/-- The frames of an interpreter's threads. -/
def interpFrames (x : InterpInfo) : List Nat := x.threads.flatMap fun th => th.frames.map (·.addr)

def interpText (x : InterpInfo) : Text := "---- interpreter @".toList ++ Nat.toDigits 16 x.addr ++ " -----\n".toList ++ threadsText 1 x.early x.threads

end Pstack.Spec

namespace Pstack.Spec
open Pstack.Python

/-! ### Printing -/

/-- A printer that has not printed anything. -/
def newPrinter : St := { out := [], depth := 0, visited := [], types := [], expanded := [] }

/-- A new printer, given an object, writes exactly `t`. -/
def Prints (cfg : Config) (mem : Mem) (a : Nat) (t : Text) : Prop := ∃ N, ∀ n, N ≤ n → ∃ st, print cfg mem n a newPrinter = some (.ok st) ∧ st.out = t

/-- Printing the object is undefined behaviour. -/
def PrintUndefined (cfg : Config) (mem : Mem) (a : Nat) : Prop := ∃ N, ∀ n, N ≤ n → print cfg mem n a newPrinter = some .ub

/-- What `printInterpreters` writes. -/
def PrintsAll (cfg : Config) (mem : Mem) (head : Nat) (modules : Bool) (t : Text) : Prop :=
  ∃ N, ∀ n, N ≤ n → ∃ st, printInterpreters cfg mem n head modules newPrinter = some (.ok st) ∧ st.out = t

end Pstack.Spec

namespace Pstack.Spec

/-! ### File names -/

/-- A path whose last part has "python" in it, followed by a version; `u` is what is before it in that part, `v` what is after. -/
structure VersionName (name : List Char) (major minor : Nat) : Prop where
  parts : ∃ dir u v : List Char, name = dir ++ (u ++ "python".toList ++ Nat.toDigits 10 major ++ ".".toList ++ Nat.toDigits 10 minor ++ v) ∧
    (dir = [] ∨ ∃ d, dir = d ++ ['/']) ∧ '/' ∉ u ∧ '/' ∉ v ∧ (∀ c, v.head? = some c → c.isDigit = false) ∧
    (∀ u' v', u ++ "python".toList ++ Nat.toDigits 10 major ++ ".".toList ++ Nat.toDigits 10 minor ++ v = u' ++ "python".toList ++ v' → u.length ≤ u'.length)

end Pstack.Spec
