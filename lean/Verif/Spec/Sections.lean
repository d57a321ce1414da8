import Verif.Model.Sections
import Verif.Spec.Dwarf
import Verif.Spec.RdrContent
/-
The sections of an ELF object (System V ABI, chapter 4).
-/
namespace Pstack.Spec
open Pstack.Reader Pstack.Sections

/-- A section header in a file. -/
def shdrBytes (h : Shdr) : List Byte :=
  leBytes 4 h.name ++ leBytes 4 h.type ++ leBytes 8 h.flags ++ leBytes 8 h.addr ++ leBytes 8 h.offset ++ leBytes 8 h.size ++ leBytes 4 h.link ++ leBytes 4 h.info ++ leBytes 8 h.addralign ++ leBytes 8 h.entsize

def ShdrFits (h : Shdr) : Prop :=
  h.name < 2 ^ 32 ∧ h.type < 2 ^ 32 ∧ h.flags < 2 ^ 64 ∧ h.addr < 2 ^ 64 ∧ h.offset < 2 ^ 64 ∧ h.size < 2 ^ 64 ∧ h.link < 2 ^ 32 ∧ h.info < 2 ^ 32 ∧ h.addralign < 2 ^ 64 ∧ h.entsize < 2 ^ 64

/-- The file has these sections, each with its header and its name: the headers are at `e_shoff`, `e_shentsize` bytes apart; their number is in `e_shnum`, or in the first if that is 0; and
the names are in section `k`, which is `e_shstrndx`, or is in the first if that is 0xffff. -/
structure HasSections (f : ElfFile) (secs : List (Shdr × List Byte)) (k : Nat) : Prop where
  wf : f.io.WF
  size : f.io.size + 2 ^ 16 < 2 ^ 64
  entsize : 64 ≤ f.shentsize ∧ f.shentsize < 2 ^ 16
  headers : ∀ i h n, secs[i]? = some (h, n) → ShdrFits h ∧ ∃ rest, f.io.content.drop (f.shoff + i * f.shentsize) = shdrBytes h ++ rest
  /-- Section 0 is not a section. -/
  null : ∃ h n, secs[0]? = some (h, n) ∧ h.type = 0
  number : ∃ h n, secs[0]? = some (h, n) ∧ (f.shnum = secs.length ∨ (f.shnum = 0 ∧ h.size = secs.length))
  strings : ∃ h n, secs[0]? = some (h, n) ∧ (f.shstrndx = k ∧ k ≠ 0 ∧ k ≠ 0xffff ∨ f.shstrndx = 0xffff ∧ h.link = k)
  names : ∃ t n, secs[k]? = some (t, n) ∧ t.type ≠ 0 ∧ t.flags / 0x800 % 2 = 0 ∧ 0 < t.offset ∧ t.offset + t.size ≤ f.io.size ∧
    ∀ h n, (h, n) ∈ secs → (∀ b ∈ n, b ≠ 0#8) ∧ ∃ rest, ((f.io.content.drop t.offset).take t.size).drop h.name = n ++ 0#8 :: rest

/-- Section `i` is the last of that name. -/
def LastNamed (secs : List (Shdr × List Byte)) (name : List Byte) (i : Nat) (h : Shdr) : Prop :=
  secs[i]? = some (h, name) ∧ ∀ j h', i < j → secs[j]? ≠ some (h', name)

/-- A section of the type asked for; 0 stands for any. -/
def OfType (t : Nat) (h : Shdr) : Prop := t = 0 ∨ h.type = t

/-- No section of this name and type is offered. -/
def NotThere (secs : List (Shdr × List Byte)) (name : List Byte) (t : Nat) : Prop := ∀ i h, LastNamed secs name i h → ¬ OfType t h

/-- It is in the file: neither SHT_NULL nor SHT_NOBITS. -/
def HasBytes (h : Shdr) : Prop := h.type ≠ 0 ∧ h.type ≠ 8

/-- ".debug_", ".zdebug_", ".dwo" -/
def dotDebug : List Byte := [0x2e#8, 0x64#8, 0x65#8, 0x62#8, 0x75#8, 0x67#8, 0x5f#8]
def dotZdebug : List Byte := [0x2e#8, 0x7a#8, 0x64#8, 0x65#8, 0x62#8, 0x75#8, 0x67#8, 0x5f#8]
def dotDwo : List Byte := [0x2e#8, 0x64#8, 0x77#8, 0x6f#8]

theorem dot_texts : dotDebug = ".debug_".toList.map (fun c => BitVec.ofNat 8 c.toNat) ∧ dotZdebug = ".zdebug_".toList.map (fun c => BitVec.ofNat 8 c.toNat) ∧
    dotDwo = ".dwo".toList.map (fun c => BitVec.ofNat 8 c.toNat) := by decide

end Pstack.Spec
