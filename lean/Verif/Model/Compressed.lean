import Verif.Model.Reader
/-
Model of the readers of compressed contents: lzma.cc, inflate.cc, and the choice among them in elf.cc (Section::io).
liblzma and libz are given from outside; what is asked of them is said in Spec/Compressed.lean.
-/
namespace Pstack.Compressed
open Pstack.Reader

/-! ### LzmaReader -/

/-- What `lzma_index_iter` says about a block: `uncompressed_stream_offset`, `uncompressed_size`, `compressed_file_offset`, `total_size`. lzma.cc:106-113 -/
structure LzBlock where
  uoff : Nat
  usize : Nat
  coff : Nat
  csize : Nat
  deriving DecidableEq, Repr

/-- liblzma, for one file. `header` is `lzma_block_header_decode` with the size of the header; `decode` is `lzma_block_buffer_decode`: whether it answered LZMA_OK, and what it wrote to the
buffer (no more than there is room for). lzma.cc:9-20 -/
structure Lzma where
  blocks : List LzBlock
  header : List Byte → Option Nat
  decode : Nat → List Byte → Nat → Bool × List Byte

/-- `lzma_index_iter_locate`: the block with an offset. -/
def Lzma.locate (z : Lzma) (offset : Nat) : Option LzBlock := z.blocks.find? (fun b => decide (b.uoff ≤ offset) && decide (offset < b.uoff + b.usize))

/-- `LzmaReader::size`, i.e. `lzma_index_uncompressed_size`. lzma.cc:94-98 -/
def Lzma.size (z : Lzma) : Nat := (z.blocks.map LzBlock.usize).sum

/-- `lzBlocks`; an entry that is not there is an empty one. lzmareader.h:23 -/
abbrev LzCache := Nat → List Byte

def LzCache.put (c : LzCache) (off : Nat) (v : List Byte) : LzCache := fun o => if o = off then v else c o

/-- A buffer of zeros, after something was written to its beginning. -/
def overZeros (n : Nat) (out : List Byte) : List Byte := (out ++ List.replicate (n - out.length) 0#8).take n

/-- The block `uncompressed`, filled if it is empty. What was made before an exception stays. `up` is `upstream->readObj`. lzma.cc:111-134 -/
def Lzma.fill (z : Lzma) (up : Nat → Nat → Res (List Byte)) (cache : LzCache) (b : LzBlock) : LzCache × Res (List Byte) :=
  if cache b.uoff ≠ [] then (cache, .ok (cache b.uoff))
  else match up b.coff b.csize with
    | .ok compressed =>
      if compressed = [] then (cache, .ub)
      else match z.header compressed with
        | none => (cache, .exc)
        | some h =>
          let r := z.decode h compressed b.usize
          let cache := cache.put b.uoff (overZeros b.usize r.2)
          if r.1 then (cache, .ok (cache b.uoff)) else (cache, .exc)
    | .exc => (cache, .exc)
    | .ub => (cache, .ub)
    | .abort => (cache, .abort)

/-- `LzmaReader::read`: the bytes that were copied. `uncompressed.size() - blockOff` is taken modulo 2^64 in the code, and reading then goes beyond the block. lzma.cc:100-143 -/
def Lzma.read (z : Lzma) (up : Nat → Nat → Res (List Byte)) (cache : LzCache) (offset size : Nat) : LzCache × Res (List Byte) :=
  if hs : size = 0 then (cache, .ok [])
  else match z.locate offset with
    | none => (cache, .exc)
    | some b =>
      match z.fill up cache b with
      | (cache, .ok v) =>
        if hv : v.length ≤ offset - b.uoff then (cache, .ub)
        else
          let amount := min (v.length - (offset - b.uoff)) size
          match z.read up cache (offset + amount) (size - amount) with
          | (cache, .ok rest) => (cache, .ok ((v.drop (offset - b.uoff)).take amount ++ rest))
          | (cache, .exc) => (cache, .exc)
          | (cache, .ub) => (cache, .ub)
          | (cache, .abort) => (cache, .abort)
      | (cache, .exc) => (cache, .exc)
      | (cache, .ub) => (cache, .ub)
      | (cache, .abort) => (cache, .abort)
termination_by size
decreasing_by omega

/-! ### InflateReader -/

/-- The answers of `inflate`: Z_OK, Z_STREAM_END, and all others. -/
inductive ZRet
  | ok | streamEnd | other
  deriving DecidableEq, Repr

/-- libz: `inflateInit2`, and `inflate` for `next_in[avail_in]`, `avail_out` and Z_FINISH or Z_SYNC_FLUSH; it answers with a code, how much it took, what it put out. inflate.cc:8-12 -/
structure Zlib where
  State : Type
  init : State
  inflate : State → List Byte → Nat → Bool → ZRet × Nat × List Byte × State

/-- The variables of the loop. inflate.cc:49-60 -/
structure InflateSt (σ : Type) where
  z : σ
  input : List Byte
  inputOffset : Nat
  eof : Bool
  out : List Byte
  avail : Nat

/-- `sizeof xferbuf`. inflate.cc:49 -/
def xferSize : Nat := 32768

/-- More input, when there is none. `up` is `upstream.read`. inflate.cc:63-69 -/
def refill {σ : Type} (up : Nat → Nat → Res (List Byte)) (s : InflateSt σ) : Res (InflateSt σ) :=
  if s.input = [] ∧ s.eof = false then do
    let got ← up s.inputOffset xferSize
    .ok { s with input := got, inputOffset := s.inputOffset + got.length, eof := got.isEmpty }
  else .ok s

/-- The loop. `none`: it has not ended after so many turns. inflate.cc:61-79 -/
def inflateLoop (z : Zlib) (up : Nat → Nat → Res (List Byte)) : Nat → InflateSt z.State → Option (Res (List Byte))
  | 0, _ => none
  | fuel + 1, s =>
      match refill up s with
      | .ok s =>
        match z.inflate s.z s.input s.avail s.eof with
        | (.streamEnd, _, made, _) => some (.ok (s.out ++ made))
        | (.ok, used, made, z') => inflateLoop z up fuel { s with z := z', input := s.input.drop used, out := s.out ++ made, avail := s.avail - made.length }
        | (.other, _, _, _) => some .exc
      | .exc => some .exc
      | .ub => some .ub
      | .abort => some .abort

/-- The constructor of `InflateReader`: its contents. `avail_out` has 32 bits. inflate.cc:41-83 -/
def inflateReader (z : Zlib) (inflatedSize : Nat) (up : Nat → Nat → Res (List Byte)) (fuel : Nat) : Option (Res Rdr) :=
  match inflateLoop z up fuel ⟨z.init, [], 0, false, [], inflatedSize % 2 ^ 32⟩ with
  | none => none
  | some (.ok out) => some (.ok (.mem (overZeros inflatedSize out) 0 inflatedSize))
  | some .exc => some .exc
  | some .ub => some .ub
  | some .abort => some .abort

/-! ### Sections -/

/-- What `Section::io` looks at in a section header, and its name. elf.cc:681-700 -/
structure SectHdr where
  name : List Byte
  /-- `sh_type == SHT_NULL` -/
  isNull : Bool
  /-- `sh_flags & SHF_COMPRESSED` -/
  compressed : Bool
  offset : Nat
  size : Nat

/-- A number in little endian. -/
def leNat : List Byte → Nat
  | [] => 0
  | b :: l => b.toNat + 256 * leNat l

/-- The loop that reads the size in big endian. elf.cc:713-716 -/
def beNat (l : List Byte) : Nat := l.foldl (fun acc b => acc * 256 + b.toNat) 0

def zdebugPrefix : List Byte := ".zdebug_".toList.map (fun c => BitVec.ofNat 8 c.toNat)
def zlibMagic : List Byte := "ZLIB".toList.map (fun c => BitVec.ofNat 8 c.toNat)

/-- `Section::io`, with zlib at hand. `Chdr` is `ch_type`, `ch_reserved` (4 bytes each), `ch_size`, `ch_addralign` (8 bytes each). elf.cc:680-740 -/
def sectionIo (z : Zlib) (elf : Rdr) (h : SectHdr) (fuel : Nat) : Option (Res Rdr) :=
  if h.isNull then some (.ok .null)
  else
    let rawIo := elf.view h.offset h.size
    if h.compressed then
      match rawIo.readObj 0 24 with
      | .ok chdr => inflateReader z (leNat ((chdr.drop 8).take 8)) (rawIo.view 24 ((h.size + W64 - 24) % W64)).read fuel
      | .exc => some .exc
      | .ub => some .ub
      | .abort => some .abort
    else if zdebugPrefix.isPrefixOf h.name then
      match rawIo.readObj 0 12 with
      | .ok sig =>
        if sig.take 4 = zlibMagic then inflateReader z (beNat (sig.drop 4)) (rawIo.view 12 (beNat (sig.drop 4))).read fuel
        else some (.ok .null)
      | .exc => some .exc
      | .ub => some .ub
      | .abort => some .abort
    else some (.ok rawIo)

end Pstack.Compressed
