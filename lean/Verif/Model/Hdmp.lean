import Verif.Model.Args
import Verif.Model.Python
/-
Model of hdmp, which lists the blocks of a process that was run with the debugging allocator: hdmp.cc.

The process is stopped. `proc->io` is as in Model/Python.lean. Layouts are those of heap.h on x86_64:
`memdesc` is `node.tqe_next` 0, `node.tqe_prev` 8, `serial` 16, `len` 24, `data` 32, `base` 40, `stack` 48, in all 56 bytes; `guard` is `desc` 0, `state` 8, in all 16;
`hdbg_info` is `heap` 0, `freelist` 16, `descriptors` 32, `freebig` 48, `stats` 72 (the calls are at 88, 92, 96, 100, 104), `maxframes` 136, `crashstack` 176, in all 4272.
-/
namespace Pstack.Hdmp
open Pstack.Args

abbrev Mem := Python.Mem

/-- What `findSegment`, `findSymbolByAddress` and `sourceFromAddr` give for an address in an object: the load address, the symbol's value and name if there is one, and the lines. hdmp.cc:25-41 -/
structure Place where
  reloc : Nat
  symbol : Option (Nat × List Byte)
  sources : List (List Byte × Int)

/-- `" " << sep << " " << file << ":" << line`. hdmp.cc:37-41 -/
def sourcesText : List Byte → List (List Byte × Int) → List Byte
  | _, [] => []
  | sep, s :: l => say " " ++ (sep ++ (say " " ++ (s.1 ++ (say ":" ++ (dec s.2 ++ sourcesText (say ",") l)))))

/-- Subtraction of `uintptr_t`s. -/
def wsub (a b : Nat) : Nat := (a + (W64 - b % W64)) % W64

/-- `"\t" << name << "+" << uintptr_t(frames[i]) - elfReloc - sym.st_value`. hdmp.cc:30-34 -/
def symbolText (frame reloc : Nat) : Option (Nat × List Byte) → List Byte
  | none => []
  | some s => say "\t" ++ (s.2 ++ (say "+" ++ dec (wsub (wsub frame reloc) s.1)))

/-- What is written after the address of a frame. hdmp.cc:29-44 -/
def placeText (frame : Nat) : Option Place → List Byte
  | none => []
  | some p => symbolText frame p.reloc p.symbol ++ sourcesText (say "in") p.sources

/-- `printStack`, with at most `n` frames left, from frame `i`. Beyond the array it is undefined behaviour. `place` looks an address up. hdmp.cc:19-48 -/
def printStack (place : Nat → Res (Option Place)) (frames : List Nat) : Nat → Nat → Res (List Byte)
  | 0, _ => .ok (say "\n")
  | n + 1, i =>
      match frames[i]? with
      | none => .ub
      | some f =>
          if f = 0 then .ok (say "\n")
          else do
            let p ← place (if i = 0 then f else f - 1)
            let rest ← printStack place frames n (i + 1)
            .ok (say "\t" ++ (pointer f ++ (placeText f p ++ (say "\n" ++ rest))))

/-- The line of a block, before its stack. BADHEAD and BADTAIL are written to `std::cout`, which is where the rest goes as well. hdmp.cc:58-67 -/
def blockLine (data len head tail state : Nat) : List Byte :=
  say "ptr=" ++ (pointer ((data + 16) % W64) ++ ((if head ≠ state then say " BADHEAD" else []) ++ ((if tail ≠ state then say " BADTAIL" else []) ++
    (say " size=" ++ (dec len ++ say "\n")))))

/-- `printBlocks`. There is no bound in the program; `abort` stands for not having come to an end yet. `maxframes` is taken to be small enough for the size not to wrap. hdmp.cc:50-73 -/
def printBlocks (mem : Mem) (place : Nat → Res (Option Place)) (maxframes state : Nat) : Nat → Nat → Res (List Byte)
  | 0, _ => .abort
  | fuel + 1, addr =>
      if addr = 0 then .ok []
      else match Python.bytesAt mem addr (56 + 8 * maxframes) with
        | none => .ok []
        | some hdr => do
            let data ← Python.field hdr 32 8
            let len ← Python.field hdr 24 8
            let next ← Python.field hdr 0 8
            let head ← Python.readObj mem ((data + 8) % W64) 4
            let tail ← Python.readObj mem ((data + 16 + len) % W64) 4
            let stack ← printStack place (Python.numbers 8 (maxframes + 1) (hdr.drop 48)) maxframes 0
            let rest ← printBlocks mem place maxframes state fuel next
            .ok (blockLine data len (Python.num head) (Python.num tail) state ++ (stack ++ rest))

/-- `mem_allocated`, `mem_free`. heap.h:9-10 -/
def memAllocated : Nat := 0xa5a5a5a5
def memFree : Nat := 0x5a5a5a5a

/-- `options`. hdmp.cc:13-17 -/
structure Opts where
  allocated : Bool
  recentfree : Bool
  historicbig : Bool
  deriving DecidableEq

/-- The options, given the letters of the command line (`e` has no effect here); none is all. hdmp.cc:113-130 -/
def optsOf (letters : List Char) : Opts :=
  let o : Opts := ⟨letters.contains 'a', letters.contains 'f', letters.contains 'b'⟩
  if o = ⟨false, false, false⟩ then ⟨true, true, true⟩ else o

/-- One of the lists, if it is wanted. hdmp.cc:93-104 -/
def section_ (mem : Mem) (place : Nat → Res (Option Place)) (maxframes fuel : Nat) (wanted : Bool) (title : String) (first state : Nat) : Res (List Byte) :=
  if wanted then do
    let t ← printBlocks mem place maxframes state fuel first
    .ok (say title ++ t)
  else .ok []

/-- `dumpHeap`, given the address of `hdbg`. hdmp.cc:75-105 -/
def dumpHeap (mem : Mem) (place : Nat → Res (Option Place)) (fuel : Nat) (o : Opts) (sym : Nat) : Res (List Byte) :=
  if sym = 0 then .abort
  else do
    let info ← Python.readObj mem sym 4272
    let mallocs ← Python.field info 88 4
    let frees ← Python.field info 92 4
    let callocs ← Python.field info 96 4
    let reallocs ← Python.field info 100 4
    let aligned ← Python.field info 104 4
    let maxframes ← Python.field info 136 8
    let crash ← printStack place (Python.numbers 8 512 (info.drop 176)) maxframes 0
    let heap ← Python.field info 0 8
    let freelist ← Python.field info 16 8
    let freebig ← Python.field info 48 8
    let a ← section_ mem place maxframes fuel o.allocated "\nCurrently allocated memory:\n\n" heap memAllocated
    let f ← section_ mem place maxframes fuel o.recentfree "\nRecently freed memory:\n\n" freelist memFree
    let b ← section_ mem place maxframes fuel o.historicbig "\nHistoric large allocations:\n\n" freebig memFree
    .ok (say "Allocator usage statistics:\n\n" ++ (say "Calls to malloc:               " ++ (dec mallocs ++ (say "\n" ++
      (say "Calls to free:                 " ++ (dec frees ++ (say "\n" ++ (say "Calls to calloc:               " ++ (dec callocs ++ (say "\n" ++
      (say "Calls to realloc:              " ++ (dec reallocs ++ (say "\n" ++ (say "Calls to aligned_alloc et al:  " ++ (dec aligned ++ (say "\n" ++
      (say "\nStack at termination:\n\n" ++ (crash ++ (a ++ (f ++ b))))))))))))))))))))

end Pstack.Hdmp
