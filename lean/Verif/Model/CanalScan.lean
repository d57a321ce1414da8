import Verif.Model.Canal
import Verif.Model.FindString
import Verif.Spec.Dwarf
/-
Model of the program canal: the options for addresses, the loop over the segments and their words, and the histogram.
-/
namespace Pstack.Canal
open Pstack.Reader Pstack.Args
open Pstack.Spec (leNat)

/-- What is used of `AddressRange`: `start`, `fileEnd`, and if `vmflags` has `memory_mapped_io`. proc.h:191-215 -/
structure Area where
  start : Nat
  fileEnd : Nat
  io : Bool

/-- The options `-f` and `-e`, with their numbers. The conversion (`strtoul`) is not modelled. canal.cc:308-318 -/
inductive Opt where
  | startLoc (a : Nat)
  | endLoc (b : Nat)

/-- The loop over the options: `-f` adds a range, `-e` changes `searchaddrs.back()`, which an empty vector does not have. canal.cc:311-318 -/
def rangesOf : List Opt → List (Nat × Nat) → Res (List (Nat × Nat))
  | [], l => .ok l
  | .startLoc a :: os, l => rangesOf os (l ++ [(a, (a + 1) % W64)])
  | .endLoc b :: os, l =>
      match l.getLast? with
      | some (a, _) => rangesOf os (l.dropLast ++ [(a, b)])
      | none => .ub

/-- What was written to `cout`, and the symbols with their counts. -/
structure Found where
  out : List Byte
  store : OMap Sym

/-- `process.io->view("segment view", start, fileEnd - start)`, read. The length 2^64-1, which would mean the end of `io`, is not treated. canal.cc:258, reader.cc:246-265 -/
def viewRead (read : Nat → Nat → Res (List Byte)) (start len off count : Nat) : Res (List Byte) :=
  if off > len then .exc
  else read ((off + start) % W64) (if (off + count) % W64 > len then len - off else count)

/-- The loops over the words, which differ in what is done with each; `ex` ends them. canal.cc:210-214, 219-221, 248-250 -/
def scanWords (rd : Nat → Nat → Res (List Byte)) (sz : Nat) (act : Found → Nat → Nat → Found) : Nat → ArrWin → Nat → Found → Res Found
  | 0, _, _, f => .ok f
  | n + 1, w, idx, f =>
      match w.getitem rd 0 sz 131072 idx with
      | (w, .ok bs) => scanWords rd sz act n w (idx + 1) (act f idx (leNat bs))
      | (_, .exc) => .ok f
      | (_, .ub) => .ub
      | (_, .abort) => .abort

/-- `search` for a segment: the array of words throws if the size is not a multiple. `sz` is 4 or 8, for other sizes the program ends with a message. canal.cc:195-210, 253-267, reader.h:289-297 -/
def scanArea (read : Nat → Nat → Res (List Byte)) (sz : Nat) (act : Nat → Found → Nat → Nat → Found) (a : Area) (f : Found) : Res Found :=
  let len := (a.fileEnd + W64 - a.start) % W64
  if len % sz ≠ 0 then .ok f
  else scanWords (viewRead read a.start len) sz (act a.start) (len / sz) ⟨0, []⟩ 0 f

/-- For each word that is in a range, the line with its address. canal.cc:211-217 -/
def rangeAct (ranges : List (Nat × Nat)) (sz loc : Nat) (f : Found) (idx p : Nat) : Found :=
  { f with out := f.out ++ ranges.flatMap (fun r => if p ≥ r.1 ∧ p < r.2 then FindString.foundLine ((loc + idx * sz) % W64) else []) }

/-- The line for `-s`. canal.cc:222-227 -/
def showLine (s : Sym) (addr p : Nat) : List Byte :=
  s.name ++ (say " 0x" ++ (say (String.ofList (Nat.toDigits 16 addr)) ++ (say " ... size=" ++ (dec s.size.toNat ++
    (say ", diff=" ++ (dec ((p + W64 - s.memaddr.toNat) % W64 : Nat) ++ say "\n"))))))

/-- For each word that refers to a symbol, its count is raised. Printing of Python objects is left out. canal.cc:219-241, 95-103 -/
def symAct (mat : BitVec 64 → Sym → Bool) (shows : Bool) (sz loc : Nat) (f : Found) (idx p : Nat) : Found :=
  match OMap.lowerBound p f.store with
  | [] => f
  | (k, s) :: _ =>
      if mat (BitVec.ofNat 64 p) s then
        ⟨if shows then f.out ++ showLine s ((loc + idx * sz) % W64) p else f.out, bump f.store k⟩
      else f

/-- The matcher for the option `-o`; the default is -1. canal.cc:389-396 -/
def matcher (symOffset : Int) : BitVec 64 → Sym → Bool :=
  if symOffset > 0 then offsetBound (BitVec.ofInt 64 symOffset) else offsetFree

/-- The loop over the segments. canal.cc:372-398 -/
def scanAll (read : Nat → Nat → Res (List Byte)) (sz : Nat) (act : Nat → Found → Nat → Nat → Found) : List Area → Found → Res Found
  | [], f => .ok f
  | a :: as, f =>
      if a.io then scanAll read sz act as f
      else do
        let f ← scanArea read sz act a f
        scanAll read sz act as f

/-- A line of the histogram. canal.cc:403-405 -/
def countLine (s : Sym) : List Byte :=
  if s.count ≠ 0 then dec s.count ++ (say " " ++ (s.name ++ (say " ( from " ++ (s.objname ++ (say ")" ++ say "\n"))))) else []

/-- The program after the symbols were collected; `sort` is `std::sort`, which may leave equal counts in any order. canal.cc:371-406 -/
def canal (read : Nat → Nat → Res (List Byte)) (areas : List Area) (sz : Nat) (opts : List Opt) (symOffset : Int) (shows : Bool)
    (sort : List Sym → List Sym) (store : OMap Sym) : Res (List Byte) := do
  let ranges ← rangesOf opts []
  let f ← if ranges.isEmpty then scanAll read sz (symAct (matcher symOffset) shows sz) areas ⟨[], store⟩
    else scanAll read sz (rangeAct ranges sz) areas ⟨[], store⟩
  return f.out ++ (sort (f.store.map (·.2))).flatMap countLine

end Pstack.Canal
