import Verif.Model.CoreNotes
import Verif.Spec.Elf
/-
Specification of what the notes of a core file record (Linux, x86_64).
-/
namespace Pstack.Spec
open Pstack.Reader Pstack.CoreNotes

/-- The record of one thread: its `elf_prstatus` and the further notes (floating point, extended state, ...) that follow it. -/
structure ThreadNotes where
  status : List Byte
  others : List NoteVal

/-- The thread's id: the four bytes at 32 of its `elf_prstatus`. -/
def ThreadNotes.id (t : ThreadNotes) : Nat := leNat ((t.status.drop 32).take 4)

/-- The thread's general registers: 27 words at 112. -/
def ThreadNotes.gregs (t : ThreadNotes) : List Byte := (t.status.drop 112).take 216

/-- The note begins the record of a thread. -/
def isStatus (n : NoteVal) : Bool := n.name = [0x43#8, 0x4f#8, 0x52#8, 0x45#8] ∧ n.type = 1

/-- The notes of a core: some that belong to no thread, then the threads' records. -/
def coreNotes (pre : List NoteVal) (ts : List ThreadNotes) : List NoteVal :=
  pre ++ (ts.map (fun t => ⟨[0x43#8, 0x4f#8, 0x52#8, 0x45#8], 1, t.status⟩ :: t.others)).flatten

/-- Sizes are those of the structures; threads have different ids. -/
structure GoodCore (pre : List NoteVal) (ts : List ThreadNotes) : Prop where
  status : ∀ t ∈ ts, t.status.length = 336
  others : ∀ t ∈ ts, ∀ n ∈ t.others, isStatus n = false
  before : ∀ n ∈ pre, isStatus n = false
  psinfo : ∀ n ∈ coreNotes pre ts, n.name = [0x43#8, 0x4f#8, 0x52#8, 0x45#8] → n.type = 3 → n.desc.length = 136
  ids : ts.Pairwise (fun t u => t.id ≠ u.id)

/-- A mapping: its file's path and its range and offset in pages. -/
structure FileMapping where
  path : List Byte
  start : Nat
  stop : Nat
  page : Nat

/-- NT_FILE: count and page size, the ranges, the paths. -/
def fileNote (pageSize : Nat) (fs : List FileMapping) : List Byte :=
  leBytes 8 fs.length ++ leBytes 8 pageSize ++
  (fs.map (fun f => leBytes 8 f.start ++ leBytes 8 f.stop ++ leBytes 8 f.page)).flatten ++
  (fs.map (fun f => f.path ++ [0#8])).flatten

def FileFits (f : FileMapping) : Prop :=
  f.start < 2 ^ 64 ∧ f.stop < 2 ^ 64 ∧ f.page < 2 ^ 64 ∧ ∀ b ∈ f.path, b ≠ 0#8

end Pstack.Spec
