import Verif.Spec.Cfi
/-
A writer for frame sections (.eh_frame, .debug_frame): sequences of common and frame entries and the bytes that encode
them. Independent of the decoder.
-/
namespace Pstack.Spec

/-- Augmentation items that may follow the leading `z`. -/
inductive AugItem where
  | personality (f : PtrFmt) (b : PtrBase) (indirect : Bool) (v : Int)
  | lsda (enc : Byte)
  | ptr (f : PtrFmt) (b : PtrBase)
  | signal

def AugItem.char : AugItem → Byte
  | .personality .. => 0x50#8
  | .lsda _ => 0x4c#8
  | .ptr .. => 0x52#8
  | .signal => 0x53#8

/-- The pointer encoding byte of a format, a base and the indirect flag. -/
def ptrEnc (f : PtrFmt) (b : PtrBase) (indirect : Bool) : Byte :=
  BitVec.ofNat 8 (f.code + b.code + (if indirect then 128 else 0))

def AugItem.bytes : AugItem → List Byte
  | .personality f b ind v => ptrEnc f b ind :: f.encode v
  | .lsda e => [e]
  | .ptr f b => [ptrEnc f b false]
  | .signal => []

def AugItem.WF : AugItem → Prop
  | .personality f _ _ v => f.Fits v
  | _ => True

/-- A common entry. `aug = none` is an empty augmentation string; `some (items, pad)` is `z` followed by the items, with
`pad` extra bytes after their data. -/
structure CieEnc where
  version : Byte
  addrSize : Byte          -- written for version 4 only
  segSize : Byte
  codeAlign : Nat
  dataAlign : Int
  rar : Byte
  aug : Option (List AugItem × List Byte)
  insns : List Byte

/-- Format and base of the addresses in this entry's frame entries: that of the last `R` item, or 8-byte absolute. -/
def CieEnc.ptr (c : CieEnc) : PtrFmt × PtrBase :=
  match c.aug with
  | none => (.udata8, .abs)
  | some (items, _) => items.foldl (fun acc i => match i with | .ptr f b => (f, b) | _ => acc) (.udata8, .abs)

def CieEnc.lsdaEnc (c : CieEnc) : Byte :=
  match c.aug with
  | none => 0#8
  | some (items, _) => items.foldl (fun acc i => match i with | .lsda e => e | _ => acc) 0#8

def CieEnc.signal (c : CieEnc) : Bool :=
  match c.aug with
  | none => false
  | some (items, _) => items.any (fun i => match i with | .signal => true | _ => false)

def CieEnc.augString (c : CieEnc) : List Byte :=
  match c.aug with
  | none => []
  | some (items, _) => 0x7a#8 :: items.map AugItem.char

def CieEnc.augData (c : CieEnc) : List Byte :=
  match c.aug with
  | none => []
  | some (items, pad) =>
      encodeU ((items.map AugItem.bytes).flatten ++ pad).length ++ ((items.map AugItem.bytes).flatten ++ pad)

/-- The bytes of the entry before its instructions, without length and id. -/
def CieEnc.head (c : CieEnc) : List Byte :=
  [c.version] ++ (c.augString ++ [0#8]) ++ (if 4 ≤ c.version.toNat then [c.addrSize, c.segSize] else []) ++
  encodeU c.codeAlign ++ encodeS c.dataAlign ++ [c.rar] ++ c.augData

def CieEnc.bytes (c : CieEnc) : List Byte := c.head ++ c.insns

def CieEnc.WF (c : CieEnc) : Prop :=
  c.codeAlign < 2 ^ 32 ∧ -2 ^ 31 ≤ c.dataAlign ∧ c.dataAlign < 2 ^ 31 ∧
  (match c.aug with | none => True | some (items, _) => ∀ i ∈ items, i.WF)

/-- A frame entry: the index of its common entry, the numbers encoding its start and length, augmentation data,
instructions. -/
structure FdeEnc where
  cie : Nat
  start : Int
  range : Int
  aug : List Byte
  insns : List Byte

/-- The bytes before the instructions, without length and CIE pointer. -/
def FdeEnc.head (f : FdeEnc) (c : CieEnc) : List Byte :=
  c.ptr.1.encode f.start ++ c.ptr.1.encode f.range ++
  (if c.aug.isSome then encodeU f.aug.length ++ f.aug else [])

def FdeEnc.bytes (f : FdeEnc) (c : CieEnc) : List Byte := f.head c ++ f.insns

def FdeEnc.WF (f : FdeEnc) (c : CieEnc) : Prop := c.ptr.1.Fits f.start ∧ c.ptr.1.Fits f.range

inductive Entry where
  | cie (c : CieEnc)
  | fde (f : FdeEnc)

/-- The common entry at an index. -/
def cieAt (es : List Entry) (i : Nat) : Option CieEnc :=
  match es[i]? with
  | some (.cie c) => some c
  | _ => none

def Entry.body (es : List Entry) : Entry → List Byte
  | .cie c => c.bytes
  | .fde f => match cieAt es f.cie with
    | some c => f.bytes c
    | none => []

/-- Size of a record with 32-bit length and id. -/
def Entry.size (es : List Entry) (e : Entry) : Nat := 8 + (e.body es).length

/-- Where record `i` begins. -/
def offsetOf (es : List Entry) (i : Nat) : Nat := ((es.take i).map (Entry.size es)).sum

/-- The two flavours of frame section. -/
inductive FrameKind | debugFrame | ehFrame
  deriving DecidableEq

/-- The id field of a record that begins at `off`: marks a CIE, or refers to one (by section offset in .debug_frame, by
distance from the field itself in .eh_frame). -/
def Entry.id (kind : FrameKind) (es : List Entry) (off : Nat) : Entry → Nat
  | .cie _ => match kind with
    | .debugFrame => 0xffffffff
    | .ehFrame => 0
  | .fde f => match kind with
    | .debugFrame => offsetOf es f.cie
    | .ehFrame => off + 4 - offsetOf es f.cie

def Entry.record (kind : FrameKind) (es : List Entry) (off : Nat) (e : Entry) : List Byte :=
  leBytes 4 (4 + (e.body es).length) ++ leBytes 4 (e.id kind es off) ++ e.body es

/-- The records of `l` laid out from `off`. -/
def emit (kind : FrameKind) (es : List Entry) : Nat → List Entry → List Byte
  | _, [] => []
  | off, e :: l => e.record kind es off ++ emit kind es (off + e.size es) l

/-- The section for a sequence of entries. -/
def frameSection (kind : FrameKind) (es : List Entry) : List Byte := emit kind es 0 es

/-- A sequence of entries that can be written: every frame entry refers to a common entry (an earlier one in .eh_frame,
where the reference is an unsigned distance backwards), numbers fit their fields. -/
def WFEntries (kind : FrameKind) (es : List Entry) : Prop :=
  (∀ e ∈ es, 4 + (e.body es).length < 0xfffffff0) ∧
  (∀ c, Entry.cie c ∈ es → c.WF) ∧
  (∀ (i : Nat) f, es[i]? = some (Entry.fde f) →
    (match kind with
      | .ehFrame => f.cie < i ∧ offsetOf es i + 4 - offsetOf es f.cie < 2 ^ 32
      | .debugFrame => offsetOf es f.cie < 0xffffffff) ∧
    ∃ c, cieAt es f.cie = some c ∧ f.WF c)

/-- Width of the fixed-size formats (0 for the variable-length ones). -/
def PtrFmt.width : PtrFmt → Nat
  | .udata2 | .sdata2 => 2
  | .udata4 | .sdata4 => 4
  | .udata8 | .sdata8 => 8
  | .uleb128 | .sleb128 => 0

/-- Layout of a `.eh_frame_hdr` section: encodings of the .eh_frame pointer, of the count, and of the table. -/
structure HdrEnc where
  version : Byte
  ptrFmt : PtrFmt
  ptrBase : PtrBase
  ptr : Int
  cntFmt : PtrFmt
  tabFmt : PtrFmt
  tabBase : PtrBase

/-- The search table: for each row the start address of the code and the address of its frame entry, both relative to
`base`. -/
def tableBytes (f : PtrFmt) (base : Nat) (rows : List (Nat × Nat)) : List Byte :=
  (rows.map (fun r => f.encode ((r.1 : Int) - base) ++ f.encode ((r.2 : Int) - base))).flatten

/-- The bytes of the header section at `hdrAddr`. -/
def HdrEnc.bytes (h : HdrEnc) (hdrAddr : Nat) (rows : List (Nat × Nat)) : List Byte :=
  [h.version, ptrEnc h.ptrFmt h.ptrBase false, ptrEnc h.cntFmt .abs false, ptrEnc h.tabFmt h.tabBase false] ++
  h.ptrFmt.encode h.ptr ++ h.cntFmt.encode rows.length ++
  tableBytes h.tabFmt (h.tabBase.value 0 hdrAddr hdrAddr) rows

/-- A header that can be written: fixed-width table not relative to the position in it, numbers fit. -/
def HdrEnc.WF (h : HdrEnc) (hdrAddr : Nat) (rows : List (Nat × Nat)) : Prop :=
  h.ptrFmt.Fits h.ptr ∧ h.cntFmt.Fits rows.length ∧ h.tabFmt.width ≠ 0 ∧ h.tabBase ≠ .pcrel ∧
  ∀ r ∈ rows, h.tabFmt.Fits ((r.1 : Int) - h.tabBase.value 0 hdrAddr hdrAddr) ∧
    h.tabFmt.Fits ((r.2 : Int) - h.tabBase.value 0 hdrAddr hdrAddr)

end Pstack.Spec
