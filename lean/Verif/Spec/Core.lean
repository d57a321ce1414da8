import Verif.Model.Core
import Verif.Spec.Elf
/-
Specification of a process's memory as a core file and the mapped objects present it.
-/
namespace Pstack.Spec
open Pstack.Reader Pstack.Elf Pstack.Core

/-- `s` is a loadable segment of the object. -/
def LoadSeg (o : Obj) (s : Phdr) : Prop := s ∈ o.phdrs ∧ s.type = 1

/-- A sound ELF object: its loadable segments are non-empty, disjoint, hold no more bytes in the file than in memory, and those
the file has lie in the file. `loads` is any order its constructor may produce. -/
structure SoundObj (o : Obj) : Prop where
  io : o.io.WF
  arranged : Arranged 1 o.phdrs o.loads
  good : GoodSegments o.phdrs
  sizes : ∀ s, LoadSeg o s → s.filesz ≤ s.memsz ∧ s.offset + s.filesz ≤ o.io.size

/-- Segment `s` of the object mapped at `base` occupies `a`. -/
def MappedAt (m : Objects) (base : Nat) (o : Obj) (s : Phdr) (a : Nat) : Prop :=
  (base, some o) ∈ m ∧ LoadSeg o s ∧ base + s.vaddr ≤ a ∧ a < base + s.vaddr + s.memsz

/-- The objects: sound, with at least one segment, ending before the last byte of the address space, each entirely below the load
address of the next. -/
structure SoundObjects (m : Objects) : Prop where
  sorted : OMap.Sorted m
  sound : ∀ base o, (base, some o) ∈ m → SoundObj o ∧ ∃ s, LoadSeg o s
  fits : ∀ base o s, (base, some o) ∈ m → LoadSeg o s → base + s.vaddr + s.memsz < 2 ^ 64
  apart : ∀ base o s base' o', (base, some o) ∈ m → (base', o') ∈ m → base < base' → LoadSeg o s →
    base + s.vaddr + s.memsz ≤ base'

/-! ### The contents of memory -/

/-- Segment `s` of the core has saved the byte at `a`. -/
def SavedIn (core : Obj) (s : Phdr) (a : Nat) (b : Byte) : Prop :=
  LoadSeg core s ∧ s.vaddr ≤ a ∧ a < s.vaddr + s.filesz ∧ core.io.content[s.offset + (a - s.vaddr)]? = some b

/-- The byte at `a` is saved in the core. -/
def Saved (core : Option Obj) (a : Nat) (b : Byte) : Prop := ∃ o s, core = some o ∧ SavedIn o s a b

/-- Segment `s` of the object mapped at `base` has a byte for `a` in its file. -/
def FileByte (m : Objects) (base : Nat) (o : Obj) (s : Phdr) (a : Nat) (b : Byte) : Prop :=
  MappedAt m base o s a ∧ a < base + s.vaddr + s.filesz ∧ o.io.content[s.offset + (a - (base + s.vaddr))]? = some b

/-- The address belongs to some segment, of the core or of a mapped object. -/
def Known (core : Option Obj) (m : Objects) (a : Nat) : Prop :=
  (∃ o s, core = some o ∧ LoadSeg o s ∧ InSegment s a) ∨ ∃ base o s, MappedAt m base o s a

/-- The byte at `a`: the one saved in the core, else the one in the file of the mapped object, else zero in any segment. -/
inductive ByteAt (core : Option Obj) (m : Objects) (a : Nat) : Byte → Prop
  | saved {b : Byte} (h : Saved core a b) : ByteAt core m a b
  | file {b : Byte} {base : Nat} {o : Obj} {s : Phdr} (h : ∀ b', ¬ Saved core a b') (hf : FileByte m base o s a b) : ByteAt core m a b
  | zero (h : ∀ b', ¬ Saved core a b') (hf : ∀ base o s b', ¬ FileByte m base o s a b') (hk : Known core m a) : ByteAt core m a 0#8

/-- How the segments of core and objects may overlap:
* within an object's segment, what the core has saved comes first;
* within a core segment, of what is not saved, bytes that a file has come first, and are of one segment;
* the first byte of an object mapped at its load address is saved. -/
structure Compatible (core : Option Obj) (m : Objects) : Prop where
  saved_first : ∀ base o s x y b, MappedAt m base o s x → MappedAt m base o s y → x ≤ y → Saved core y b → ∃ b', Saved core x b'
  file_first : ∀ co c base o s x y b, core = some co → LoadSeg co c → InSegment c x → InSegment c y → x ≤ y →
    (∀ b', ¬ Saved core x b') → (∀ b', ¬ Saved core y b') → FileByte m base o s y b → ∃ b', FileByte m base o s x b'
  first_saved : ∀ base o s, MappedAt m base o s base → ∃ b, Saved core base b

end Pstack.Spec
