import Verif.Basic
/-
Model of the reader stack: libpstack/reader.h and reader.cc.
A read that transfers bytes to a caller's buffer is modelled as returning the list of bytes transferred
(the C++ returns their number and writes them through the pointer).
-/
namespace Pstack.Reader

/-! ### Plain readers and windows -/

/-- Reader objects. reader.h:104-118 (FileReader), reader.h:165-172 (MemReader),
reader.h:191-201 (NullReader), reader.h:203-225 (OffsetReader), reader.cc:230-239 (MemOffsetReader).
* `mem buf start size`: a MemReader/MmapReader/MemOffsetReader whose `data()` points `start` bytes into the
  allocated block `buf`, and which claims `size` bytes.
* `file data`: a file; `pread` is taken at its POSIX meaning on a regular file (short at EOF, 0 beyond).
* `window up offset length`: an OffsetReader. -/
inductive Rdr where
  | mem (buf : List Byte) (start size : Nat)
  | file (data : List Byte)
  | null
  | window (up : Rdr) (offset length : Nat)

/-- `size()`. reader.h:171, reader.h:186, reader.h:199, reader.cc:14-18, reader.cc:267-270. -/
def Rdr.size : Rdr → Nat
  | .mem _ _ size => size
  | .file data => data.length
  | .null => 0
  | .window _ _ length => length

/-- `read(off, count, ptr)`.
reader.cc:67-75 (AbstractMemReader: throws if `off > size()`, else copies `min(count, size()-off)` bytes; copying
from outside the block is undefined behaviour), reader.cc:110-121 (FileReader), reader.h:193-195 (NullReader),
reader.cc:258-265 (OffsetReader; both additions are modulo 2^64). -/
def Rdr.read : Rdr → Nat → Nat → Res (List Byte)
  | .mem buf start size, off, count =>
      if off > size then .exc
      else
        let rc := min count (size - off)
        if rc = 0 ∨ start + off + rc ≤ buf.length then .ok ((buf.drop (start + off)).take rc) else .ub
  | .file data, off, count => .ok ((data.drop off).take count)
  | .null, _, _ => .exc
  | .window up offset length, off, count =>
      if off > length then .exc
      else
        let count := if (off + count) % W64 > length then length - off else count
        up.read ((off + offset) % W64) count

/-- `numeric_limits<Off>::max()`. -/
def maxOff : Nat := W64 - 1

/-- `view(name, start, length)`. reader.cc:105-108 with the OffsetReader constructor reader.cc:246-256 (a length of
`max` means "to the end of the underlying reader", by subtraction modulo 2^64); reader.cc:241-244 (memory readers make
a MemOffsetReader of exactly the given size); reader.h:221-223 (a view of a window is a view of what it is a window on,
with the offsets added - the window's own length is not consulted). -/
def Rdr.view : Rdr → Nat → Nat → Rdr
  | .mem buf st _, start, length => .mem buf (st + start) length
  | .window up offset _, start, length => up.view ((offset + start) % W64) length
  | r, start, length =>
      .window r start (if length = maxOff then (r.size + W64 - start) % W64 else length)

/-- `readObj(offset, ptr, count)` for `n = count * sizeof *object` bytes: nothing for 0, an exception on a short read.
reader.h:82-92. -/
def Rdr.readObj (r : Rdr) (off n : Nat) : Res (List Byte) :=
  if n = 0 then .ok []
  else do
    let bs ← r.read off n
    if bs.length ≠ n then .exc else .ok bs

/-- The five characters `(null)` (six bytes). reader.cc:91-92. -/
def nullString : List Byte := [0x28#8, 0x6e#8, 0x75#8, 0x6c#8, 0x6c#8, 0x29#8]

/-- The loop of `Reader::readString` with `n = size() - offset` offsets left. reader.cc:93-101.
`rd off` is `read(off, 1, &c)`. -/
def readStringLoop (rd : Nat → Res (List Byte)) : Nat → Nat → Res (List Byte)
  | 0, _ => .ok []
  | n + 1, off =>
      match rd off with
      | .ok [c] => if c = 0#8 then .ok [] else do
          let rest ← readStringLoop rd n (off + 1)
          return c :: rest
      | .ok _ => .ok []
      | .exc => .exc
      | .ub => .ub
      | .abort => .abort

/-- `Reader::readString`. reader.cc:88-103. -/
def readString (rd : Nat → Res (List Byte)) (size off : Nat) : Res (List Byte) :=
  if off = 0 then .ok nullString else readStringLoop rd (size - off) off

/-- `string(ptroff(data(), offset))`: the C string at that place of the block, whatever the reader's size; running off the
block is undefined. reader.cc:83-86. -/
def memString (buf : List Byte) (pos : Nat) : Res (List Byte) :=
  if (buf.drop pos).any (· == 0#8) then .ok ((buf.drop pos).takeWhile (· ≠ 0#8)) else .ub

/-- The virtual `readString(offset)`. reader.cc:83-86 (memory readers), reader.h:209-211 (a window asks the reader it is a window
on), reader.cc:88-103 (all others). -/
def Rdr.readString : Rdr → Nat → Res (List Byte)
  | .mem buf start _, off => memString buf (start + off)
  | .window up offset _, off => up.readString ((off + offset) % W64)
  | .file data, off => Reader.readString (fun o => (Rdr.file data).read o 1) data.length off
  | .null, off => Reader.readString (fun _ => .exc) 0 off

/-! ### CacheReader -/

/-- The upstream of a CacheReader as an arbitrary total function: `none` is a thrown exception. -/
abbrev Source := Nat → Nat → Option (List Byte)

/-- `CacheReader::PAGESIZE`. reader.h:123. -/
def PAGESIZE : Nat := 256
/-- `CacheReader::MAXPAGES`. reader.h:124. -/
def MAXPAGES : Nat := 16

/-- `CacheReader::Page` (`len` is the length of `data`). reader.h:125-131. -/
structure Page where
  offset : Nat
  data : List Byte
  deriving Repr, DecidableEq

/-- State of a CacheReader: `pages` front first, `strings` the `stringCache`. reader.h:120-133. -/
structure Cache where
  pages : List Page
  strings : List (Nat × List Byte)
  deriving Repr

/-- A freshly constructed CacheReader. reader.cc:131-134. -/
def Cache.init : Cache := ⟨[], []⟩

/-- `CacheReader::flush`. reader.cc:136-139. -/
def Cache.flush (c : Cache) : Cache := { c with pages := [] }

/-- `CacheReader::getPage`: the first page with that offset is erased from its place and pushed to the front (for the
front page that changes nothing); a miss steals the last page if there are MAXPAGES, loads (an exception leaves the
list without the stolen page) and pushes to the front. reader.cc:141-169, load: 123-129. -/
def Cache.getPage (src : Source) (c : Cache) (off : Nat) : Cache × Option Page :=
  match c.pages.find? (fun p => p.offset == off) with
  | some p => ({ c with pages := p :: c.pages.eraseP (fun p => p.offset == off) }, some p)
  | none =>
      let kept := if c.pages.length = MAXPAGES then c.pages.dropLast else c.pages
      match src off PAGESIZE with
      | none => ({ c with pages := kept }, none)
      | some d => let p := ⟨off, d⟩; ({ c with pages := p :: kept }, some p)

/-- The copy loop of `CacheReader::read`, returning the new state and the bytes copied. reader.cc:177-198.
Offsets are unbounded naturals: the model is of reads with `off + count < 2^64`. -/
def Cache.readLoop (src : Source) (c : Cache) (off count : Nat) : Cache × List Byte :=
  if count = 0 then (c, [])
  else
    let o := off % PAGESIZE
    match c.getPage src (off - o) with
    | (c, none) => (c, [])
    | (c, some page) =>
        if o ≥ page.data.length then (c, [])
        else
          let chunk := min (page.data.length - o) count
          let bytes := (page.data.drop o).take chunk
          if page.data.length ≠ PAGESIZE then (c, bytes)
          else
            let r := Cache.readLoop src c (off + chunk) (count - chunk)
            (r.1, bytes ++ r.2)
termination_by count
decreasing_by omega

/-- `CacheReader::read`. reader.cc:171-199. -/
def Cache.read (src : Source) (c : Cache) (off count : Nat) : Cache × Res (List Byte) :=
  if count ≥ PAGESIZE then
    (c, match src off count with | some bs => .ok bs | none => .exc)
  else
    let r := c.readLoop src off count
    (r.1, .ok r.2)

/-- The loop of `Reader::readString` reading through the cache. reader.cc:93-101, 171-199. -/
def Cache.readStringLoop (src : Source) : Nat → Cache → Nat → Cache × List Byte
  | 0, c, _ => (c, [])
  | n + 1, c, off =>
      match c.read src off 1 with
      | (c, .ok [b]) => if b = 0#8 then (c, []) else
          let r := Cache.readStringLoop src n c (off + 1)
          (r.1, b :: r.2)
      | (c, _) => (c, [])

/-- `CacheReader::readString`: first use of an offset computes and remembers the string, later uses return the
remembered one. reader.cc:201-208 with `Reader::readString` (88-103); `size` is `upstream->size()`. -/
def Cache.readString (src : Source) (size : Nat) (c : Cache) (off : Nat) : Cache × List Byte :=
  match c.strings.lookup off with
  | some s => (c, s)
  | none =>
      let r := if off = 0 then (c, nullString) else Cache.readStringLoop src (size - off) c off
      ({ r.1 with strings := (off, r.2) :: r.1.strings }, r.2)

/-! ### ReaderArray -/

/-- Cache window of a ReaderArray: `cacheStart` and the whole elements read from there (`cacheEnd = start + length`).
Elements are the `sz` bytes they are loaded from. reader.h:233-241. -/
structure ArrWin where
  start : Nat
  items : List (List Byte)

/-- Cut `n` elements of `sz` bytes from the front of a buffer (the `cache` array's elements). reader.h:240. -/
def cut (sz : Nat) : Nat → List Byte → List (List Byte)
  | 0, _ => []
  | n + 1, bs => bs.take sz :: cut sz n (bs.drop sz)

/-- `ReaderArray::getitem(idx)` for elements of `sz` bytes and a window of `K` elements. reader.h:310-320. -/
def ArrWin.getitem (rd : Nat → Nat → Res (List Byte)) (base sz K : Nat) (w : ArrWin) (idx : Nat) :
    ArrWin × Res (List Byte) :=
  let fetch (w : ArrWin) : Res (List Byte) :=
    match w.items[idx - w.start]? with
    | some e => .ok e
    | none => .ub
  if w.start > idx ∨ idx ≥ w.start + w.items.length then
    match rd (idx * sz + base) (K * sz) with
    | .ok bs =>
        let w' : ArrWin := ⟨idx, cut sz (bs.length / sz) bs⟩
        if bs.length < sz then (w', .exc) else (w', fetch w')
    | .exc => (w, .exc)
    | .ub => (w, .ub)
    | .abort => (w, .abort)
  else (w, fetch w)

/-- `for (auto &x : ReaderArray(reader, base))`, with `n` elements left: iterator `++` and comparison with the
sentinel. reader.h:250-286, 301-304. -/
def iterate (rd : Nat → Nat → Res (List Byte)) (base sz K : Nat) : Nat → ArrWin → Nat → Res (List (List Byte))
  | 0, _, _ => .ok []
  | n + 1, w, idx => do
      let (w, r) := w.getitem rd base sz K idx
      let x ← r
      let xs ← iterate rd base sz K n w (idx + 1)
      return x :: xs

/-- Construct a ReaderArray on a reader of the given size and iterate it: `eof = (size - base)/sz` (modulo 2^64), an
exception if the size is not a multiple of the element size. reader.h:289-297. -/
def readerArray (rd : Nat → Nat → Res (List Byte)) (size base sz K : Nat) : Res (List (List Byte)) :=
  if size ≠ maxOff ∧ size % sz ≠ 0 then .exc
  else iterate rd base sz K (((size + W64 - base) % W64) / sz) ⟨0, []⟩ 0

/-! ### LEB128 -/

/-- `readleb128<T>` on the bytes from the start position, with `n` bytes read so far (`shift = 7 n`).
`signed` selects `T = intmax_t`. Running off the available bytes is `over`: an exception from the array view
(reader.cc:272-284), undefined for a memory reader's raw pointer (reader.cc:286-296). A shift of 64 or more is
undefined. reader.h:322-341. -/
def leb128 (signed : Bool) (over : Res (BitVec 64 × Nat)) : List Byte → Nat → BitVec 64 → Res (BitVec 64 × Nat)
  | [], _, _ => over
  | byte :: rest, n, result =>
      let shift := 7 * n
      if shift ≥ 64 then .ub
      else
        let result := result ||| (((byte &&& 0x7f#8).setWidth 64) <<< shift)
        let shift := shift + 7
        if byte &&& 0x80#8 = 0#8 then
          let result :=
            if signed ∧ shift < 64 ∧ byte &&& 0x40#8 ≠ 0#8 then result ||| ((~~~ 0#64) <<< shift) else result
          .ok (result, n + 1)
        else leb128 signed over rest (n + 1) result

/-- `readleb128` driven by the iterator of a byte `ReaderArray` at `base` (window of 1024 bytes, reader.h:232), after `n`
bytes. The loop ends by itself when the shift becomes undefined, so fuel 11 always suffices; running out is never
reached. reader.h:322-341, 253-256, 310-320. -/
def lebIter (signed : Bool) (rd : Nat → Nat → Res (List Byte)) (base : Nat) :
    Nat → ArrWin → Nat → BitVec 64 → Res (BitVec 64 × Nat)
  | 0, _, _, _ => .ub
  | fuel + 1, w, n, result =>
      match w.getitem rd base 1 1024 n with
      | (w, .ok [byte]) =>
          let shift := 7 * n
          if shift ≥ 64 then .ub
          else
            let result := result ||| (((byte &&& 0x7f#8).setWidth 64) <<< shift)
            let shift := shift + 7
            if byte &&& 0x80#8 = 0#8 then
              let result :=
                if signed ∧ shift < 64 ∧ byte &&& 0x40#8 ≠ 0#8 then result ||| ((~~~ 0#64) <<< shift) else result
              .ok (result, n + 1)
            else lebIter signed rd base fuel w (n + 1) result
      | (_, .ok _) => .ub
      | (_, .exc) => .exc
      | (_, .ub) => .ub
      | (_, .abort) => .abort

/-- `readULEB128(off)` / `readSLEB128(off)` of a reader object, by dynamic dispatch: memory readers decode from the raw
pointer (reader.cc:286-296), all others through a byte array view (reader.cc:272-284). -/
def Rdr.readLEB (signed : Bool) : Rdr → Nat → Res (BitVec 64 × Nat)
  | .mem buf start _, off => leb128 signed .ub (buf.drop (start + off)) 0 0#64
  | r, off => lebIter signed r.read off 12 ⟨0, []⟩ 0 0#64

/-- `Reader::readULEB128` on a reader with the given contents. reader.cc:272-277. -/
def readULEB128 (bytes : List Byte) : Res (BitVec 64 × Nat) := leb128 false .exc bytes 0 0#64
/-- `Reader::readSLEB128`. reader.cc:279-284. -/
def readSLEB128 (bytes : List Byte) : Res (BitVec 64 × Nat) := leb128 true .exc bytes 0 0#64

end Pstack.Reader
