import Verif.Model.Elf
import Verif.Spec.RdrContent
import Verif.Spec.Dwarf
/-
Specifications for ELF objects: the layouts of the ELF structures (gABI, Elf64, little-endian), which addresses a segment or a
symbol covers, what a well-formed hash table of either kind is, and how notes are laid out. The record types Phdr, Sym,
Nhdr are the model's, nothing else is.
-/
namespace Pstack.Spec
open Pstack.Elf Pstack.Reader

/-! ### Layouts -/

/-- `Elf64_Phdr`. -/
def phdrBytes (p : Phdr) : List Byte :=
  leBytes 4 p.type ++ leBytes 4 p.flags ++ leBytes 8 p.offset ++ leBytes 8 p.vaddr ++ leBytes 8 p.paddr ++
  leBytes 8 p.filesz ++ leBytes 8 p.memsz ++ leBytes 8 p.align

/-- The fields fit their places. -/
def PhdrFits (p : Phdr) : Prop :=
  p.type < 2 ^ 32 ∧ p.flags < 2 ^ 32 ∧ p.offset < 2 ^ 64 ∧ p.vaddr < 2 ^ 64 ∧ p.paddr < 2 ^ 64 ∧
  p.filesz < 2 ^ 64 ∧ p.memsz < 2 ^ 64 ∧ p.align < 2 ^ 64

/-- `Elf64_Sym`. -/
def symBytes (s : Sym) : List Byte :=
  leBytes 4 s.name ++ leBytes 1 s.info ++ leBytes 1 s.other ++ leBytes 2 s.shndx ++ leBytes 8 s.value ++ leBytes 8 s.size

def SymFits (s : Sym) : Prop :=
  s.name < 2 ^ 32 ∧ s.info < 2 ^ 8 ∧ s.other < 2 ^ 8 ∧ s.shndx < 2 ^ 16 ∧ s.value < 2 ^ 64 ∧ s.size < 2 ^ 64

/-! ### Segments -/

/-- The segment occupies address `a` in memory. -/
def InSegment (p : Phdr) (a : Nat) : Prop := p.vaddr ≤ a ∧ a < p.vaddr + p.memsz

/-- The loadable segments are not empty, do not reach past the address space, and no two of them share an address. -/
def GoodSegments (file : List Phdr) : Prop :=
  (∀ p ∈ file, p.type = 1 → 0 < p.memsz ∧ p.vaddr + p.memsz ≤ 2 ^ 64) ∧
  (file.filter (fun p => p.type == 1)).Pairwise (fun p q => ∀ a, ¬ (InSegment p a ∧ InSegment q a))

/-! ### Symbols -/

/-- The symbol can be reported for an address: of the wanted type (0: any), in an allocated section of the object. -/
def Eligible (secFlags : List Nat) (type : Nat) (s : Sym) : Prop :=
  (type = 0 ∨ s.info % 16 = type) ∧ ∃ flags, secFlags[s.shndx]? = some flags ∧ flags.testBit 1 = true

/-- The symbol covers the address. -/
def SymCovers (s : Sym) (a : Nat) : Prop := s.value ≤ a ∧ a < s.value + s.size

/-- A reader whose bytes are exactly the given symbols (an absent section reads as the null reader). -/
def HoldsSyms (r : Rdr) (syms : List Sym) : Prop :=
  (r = .null ∧ syms = []) ∨
  (r.WF ∧ r.size + 1024 < 2 ^ 64 ∧ r.content = (syms.map symBytes).flatten ∧ ∀ s ∈ syms, SymFits s)

/-! ### Hash functions -/

/-- The hash of the System V ABI on the unsigned values of the characters. The accumulator has 28 bits; the four bits
that overflow are folded into bits 4 to 7. -/
def sysvHash (name : List Byte) : Nat :=
  name.foldl (fun h c => let t := (16 * h + c.toNat) % 2 ^ 32; (t % 2 ^ 28) ^^^ (t / 2 ^ 28 * 16)) 0

/-- The hash of DT_GNU_HASH: `33 * h + c` from 5381, modulo 2^32. -/
def djbHash (name : List Byte) : Nat := name.foldl (fun h c => (33 * h + c.toNat) % 2 ^ 32) 5381

/-! ### Hash tables -/

/-- The names of a dynamic symbol table: symbol `i` is at `symBytes`, its name is the string at `name` in the string section. -/
structure DynTable where
  syms : List Sym
  nameOf : Sym → List Byte

/-- The readers `symtab`, `strtab` hold the table. -/
def DynTable.In (t : DynTable) (symtab strtab : Rdr) : Prop :=
  HoldsSyms symtab t.syms ∧ ∀ s ∈ t.syms, strtab.readString s.name = .ok (t.nameOf s)

/-- Following `chain` from `i` visits exactly `is` and then 0. -/
inductive HashChain (chain : List Nat) : Nat → List Nat → Prop
  | done : HashChain chain 0 []
  | step {i next : Nat} {is : List Nat} (h0 : i ≠ 0) (h : chain[i]? = some next) (hr : HashChain chain next is) :
      HashChain chain i (i :: is)

/-- A DT_HASH table (gABI "Hash Table"): the chain that starts at a bucket contains exactly the entered symbols that hash to
it; `entered` says which symbols are in the table. -/
structure SysvTable where
  buckets : List Nat
  chain : List Nat

def SysvTable.bytes (h : SysvTable) : List Byte :=
  ((h.buckets.length :: h.chain.length :: (h.buckets ++ h.chain)).map (leBytes 4)).flatten

def SysvTable.Good (h : SysvTable) (t : DynTable) (entered : Nat → Prop) : Prop :=
  0 < h.buckets.length ∧ h.chain.length = t.syms.length ∧ h.buckets.length < 2 ^ 32 ∧ h.chain.length < 2 ^ 32 ∧
  (∀ w ∈ h.buckets ++ h.chain, w < 2 ^ 32) ∧
  ∀ b i, h.buckets[b]? = some i → ∃ is, HashChain h.chain i is ∧
    ∀ k, k ∈ is ↔ entered k ∧ ∃ s, t.syms[k]? = some s ∧ sysvHash (t.nameOf s) % h.buckets.length = b

/-- A DT_GNU_HASH table. -/
structure GnuTable where
  symoffset : Nat
  shift : Nat
  bloom : List Nat
  buckets : List Nat
  chain : List Nat

def GnuTable.bytes (g : GnuTable) : List Byte :=
  ([g.buckets.length, g.symoffset, g.bloom.length, g.shift].map (leBytes 4)).flatten ++
  (g.bloom.map (leBytes 8)).flatten ++ (g.buckets.map (leBytes 4)).flatten ++ (g.chain.map (leBytes 4)).flatten

/-- The bucket of a name. -/
def GnuTable.bucketOf (g : GnuTable) (name : List Byte) : Nat := djbHash name % g.buckets.length

/-- The table is right for the symbols from `symoffset` on: they are sorted by bucket; each bucket holds the index of its first
symbol or 0; each symbol has a chain word - its hash with the lowest bit telling whether it is the last of its bucket;
and the two bits of each symbol are set in the Bloom filter. -/
structure GnuTable.Good (g : GnuTable) (t : DynTable) : Prop where
  buckets_pos : 0 < g.buckets.length
  bloom_pos : 0 < g.bloom.length
  offset_pos : 0 < g.symoffset
  shift_lt : g.shift < 32
  size_lt : 16 + 8 * g.bloom.length + 4 * g.buckets.length + 4 * g.chain.length < 2 ^ 32
  count : t.syms.length = g.symoffset + g.chain.length ∨ (g.chain = [] ∧ t.syms.length ≤ g.symoffset)
  count_lt : t.syms.length < 2 ^ 32
  offset_lt : g.symoffset < 2 ^ 32
  bloom_lt : ∀ w ∈ g.bloom, w < 2 ^ 64
  bucket_lt : ∀ w ∈ g.buckets, w < 2 ^ 32
  sorted : ∀ i j s u, g.symoffset ≤ i → i < j → t.syms[i]? = some s → t.syms[j]? = some u →
    g.bucketOf (t.nameOf s) ≤ g.bucketOf (t.nameOf u)
  first : ∀ b w, g.buckets[b]? = some w →
    (∃ s, g.symoffset ≤ w ∧ t.syms[w]? = some s ∧ g.bucketOf (t.nameOf s) = b ∧
      ∀ j u, g.symoffset ≤ j → t.syms[j]? = some u → g.bucketOf (t.nameOf u) = b → w ≤ j) ∨
    (w = 0 ∧ ∀ j u, g.symoffset ≤ j → t.syms[j]? = some u → g.bucketOf (t.nameOf u) ≠ b)
  words : ∀ i s, g.symoffset ≤ i → t.syms[i]? = some s → ∃ w, g.chain[i - g.symoffset]? = some w ∧
    w / 2 = djbHash (t.nameOf s) / 2 ∧
    (w % 2 = 1 ↔ ∀ u, t.syms[i + 1]? = some u → g.bucketOf (t.nameOf u) ≠ g.bucketOf (t.nameOf s))
  filter : ∀ i s, g.symoffset ≤ i → t.syms[i]? = some s →
    ∃ w, g.bloom[djbHash (t.nameOf s) / 64 % g.bloom.length]? = some w ∧
      w.testBit (djbHash (t.nameOf s) % 64) = true ∧ w.testBit (djbHash (t.nameOf s) / 2 ^ g.shift % 64) = true

/-! ### Notes -/

/-- A note: name, without its terminating NUL, type and descriptor. -/
structure NoteVal where
  name : List Byte
  type : Nat
  desc : List Byte
  deriving Repr, DecidableEq

/-- Zero bytes up to the next multiple of 4. -/
def pad4 (n : Nat) : List Byte := List.replicate ((4 - n % 4) % 4) 0#8

/-- The layout of a note (gABI "Note Section"): lengths, type, the NUL-terminated name and the descriptor, each padded. -/
def noteBytes (n : NoteVal) : List Byte :=
  leBytes 4 (n.name.length + 1) ++ leBytes 4 n.desc.length ++ leBytes 4 n.type ++
  (n.name ++ [0#8] ++ pad4 (n.name.length + 1)) ++ (n.desc ++ pad4 n.desc.length)

def NoteFits (n : NoteVal) : Prop :=
  n.name.length + 1 < 2 ^ 32 ∧ n.desc.length < 2 ^ 32 ∧ n.type < 2 ^ 32 ∧ ∀ b ∈ n.name, b ≠ 0#8

/-- A note segment holds the notes: its bytes in the file are theirs, one after another. -/
def SegmentHolds (file : List Byte) (ph : Phdr) (ns : List NoteVal) : Prop :=
  ph.filesz = ((ns.map noteBytes).flatten).length ∧
  (file.drop ph.offset).take ph.filesz = (ns.map noteBytes).flatten ∧ ∀ n ∈ ns, NoteFits n

end Pstack.Spec
