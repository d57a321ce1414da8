import Verif.Model.Hdmp
import Verif.Spec.Args
import Verif.Spec.Python
/-
What hdmp says of a process that was run with the debugging allocator: for each block its address and size, whether the words before and after it are what they should be, and the stack it
was allocated (or released) from.
-/
namespace Pstack.Spec
open Pstack.Hdmp (Place Opts)

/-- The stack of a block: what is at `a` is these addresses, and then 0 if there are fewer than `max`. -/
structure StackAt (mem : Python.Mem) (max a : Nat) (frames : List Nat) : Prop where
  at_ : ∀ (i f : Nat), frames[i]? = some f → f ≠ 0 ∧ NumAt mem (a + 8 * i) 8 f
  size : frames.length ≤ max
  stop : frames.length < max → NumAt mem (a + 8 * frames.length) 8 0

/-- A block: where it is (`ptr` is what `malloc` returned), its size, the words before and after it, and its stack. -/
structure HeapBlock where
  ptr : Nat
  size : Nat
  before : Nat
  behind : Nat
  stack : List Nat

/-- The block whose descriptor is at `a`. There is memory for one frame more than there may be (`C92_not_last`), and at the block (`C92_not_big`). -/
structure DescAt (mem : Python.Mem) (max a next : Nat) (b : HeapBlock) : Prop where
  present : Present mem a (56 + 8 * max)
  next : NumAt mem a 8 next
  size : NumAt mem (a + 24) 8 b.size
  guard : 16 ≤ b.ptr ∧ NumAt mem (a + 32) 8 (b.ptr - 16)
  stack : StackAt mem max (a + 48) b.stack
  fits : b.ptr + b.size < 2 ^ 64
  before : NumAt mem (b.ptr - 8) 4 b.before
  behind : NumAt mem (b.ptr + b.size) 4 b.behind

/-- A list of blocks; it may break off where there is no memory. -/
inductive BlocksFrom (mem : Python.Mem) (max : Nat) : Nat → List HeapBlock → Prop
  | nil : BlocksFrom mem max 0 []
  | broken {a} : ¬Present mem a (56 + 8 * max) → BlocksFrom mem max a []
  | cons {a next b l} : a ≠ 0 → DescAt mem max a next b → BlocksFrom mem max next l → BlocksFrom mem max a (b :: l)

/-- The places in sources. -/
def linesText : List (List Byte × Int) → List Byte
  | [] => []
  | s :: l => asciiText " in " ++ (s.1 ++ (asciiText ":" ++ decimalText s.2)) ++ l.flatMap (fun s => asciiText " , " ++ (s.1 ++ (asciiText ":" ++ decimalText s.2)))

/-- What is said of the place of a frame: the symbol, how far it is in it, and the lines. -/
inductive PlaceShown (frame : Nat) : Option Place → List Byte → Prop
  | unknown : PlaceShown frame none []
  | noSymbol {p} : p.symbol = none → PlaceShown frame (some p) (linesText p.sources)
  | symbol {p v name off} : p.symbol = some (v, name) → frame = p.reloc + v + off → frame < 2 ^ 64 →
      PlaceShown frame (some p) (asciiText "\t" ++ (name ++ (asciiText "+" ++ decimalText off)) ++ linesText p.sources)

/-- A line for each frame, and an empty line. All but the first are return addresses: what is looked up is the instruction before. -/
inductive StackShown (place : Nat → Option Place) : Bool → List Nat → List Byte → Prop
  | nil {first} : StackShown place first [] (asciiText "\n")
  | cons {first f l t rest} : PlaceShown f (place (if first then f else f - 1)) t → StackShown place false l rest →
      StackShown place first (f :: l) (asciiText "\t" ++ (addressText f ++ (t ++ (asciiText "\n" ++ rest))))

/-- A block. -/
def blockHeading (state : Nat) (b : HeapBlock) : List Byte :=
  asciiText "ptr=" ++ (addressText b.ptr ++ ((if b.before = state then [] else asciiText " BADHEAD") ++ ((if b.behind = state then [] else asciiText " BADTAIL") ++
    (asciiText " size=" ++ (decimalText b.size ++ asciiText "\n")))))

/-- All of them, in order. -/
inductive BlocksShown (place : Nat → Option Place) (state : Nat) : List HeapBlock → List Byte → Prop
  | nil : BlocksShown place state [] []
  | cons {b l s rest} : StackShown place true b.stack s → BlocksShown place state l rest → BlocksShown place state (b :: l) (blockHeading state b ++ (s ++ rest))

/-- What the allocator knows: the calls, the stack of the failure, and three lists. -/
structure HeapInfo where
  mallocs : Nat
  frees : Nat
  callocs : Nat
  reallocs : Nat
  aligned : Nat
  maxframes : Nat
  crash : List Nat
  heap : List HeapBlock
  freed : List HeapBlock
  big : List HeapBlock

/-- It is at `a`. The stack of the failure is no longer than those of blocks may be (`C92_not_crash`). -/
structure InfoAt (mem : Python.Mem) (a : Nat) (h : HeapInfo) : Prop where
  notNull : a ≠ 0
  present : Present mem a 4272
  mallocs : NumAt mem (a + 88) 4 h.mallocs
  frees : NumAt mem (a + 92) 4 h.frees
  callocs : NumAt mem (a + 96) 4 h.callocs
  reallocs : NumAt mem (a + 100) 4 h.reallocs
  aligned : NumAt mem (a + 104) 4 h.aligned
  maxframes : NumAt mem (a + 136) 8 h.maxframes
  crash : StackAt mem h.maxframes (a + 176) h.crash ∧ (h.crash.length < 512 ∨ h.maxframes ≤ 512)
  heap : ∃ p, NumAt mem a 8 p ∧ BlocksFrom mem h.maxframes p h.heap
  freed : ∃ p, NumAt mem (a + 16) 8 p ∧ BlocksFrom mem h.maxframes p h.freed
  big : ∃ p, NumAt mem (a + 48) 8 p ∧ BlocksFrom mem h.maxframes p h.big

/-- A list under its title, if it is wanted. -/
inductive PartShown (place : Nat → Option Place) (state : Nat) (title : String) (l : List HeapBlock) : Bool → List Byte → Prop
  | no : PartShown place state title l false []
  | yes {t} : BlocksShown place state l t → PartShown place state title l true (asciiText title ++ t)

/-- The report. Words are a5a5a5a5 around allocated blocks and 5a5a5a5a around others. -/
inductive HeapReport (place : Nat → Option Place) (o : Opts) (h : HeapInfo) : List Byte → Prop
  | mk {c t1 t2 t3} : StackShown place true h.crash c → PartShown place 0xa5a5a5a5 "\nCurrently allocated memory:\n\n" h.heap o.allocated t1 →
      PartShown place 0x5a5a5a5a "\nRecently freed memory:\n\n" h.freed o.recentfree t2 → PartShown place 0x5a5a5a5a "\nHistoric large allocations:\n\n" h.big o.historicbig t3 →
      HeapReport place o h (asciiText "Allocator usage statistics:\n\nCalls to malloc:               " ++ (decimalText h.mallocs ++ (asciiText "\nCalls to free:                 " ++ (decimalText h.frees ++
        (asciiText "\nCalls to calloc:               " ++ (decimalText h.callocs ++ (asciiText "\nCalls to realloc:              " ++ (decimalText h.reallocs ++
        (asciiText "\nCalls to aligned_alloc et al:  " ++ (decimalText h.aligned ++ (asciiText "\n\nStack at termination:\n\n" ++ (c ++ (t1 ++ (t2 ++ t3))))))))))))))

end Pstack.Spec
