import Verif.Model.CanalScan
import Verif.Spec.FindString
/-
Words of memory, references to addresses and to symbols, and what canal should write.
-/
namespace Pstack.Spec
open Pstack.Canal Pstack.Reader

/-- The memory of this area is these bytes. -/
structure AreaBytes (read : Nat → Nat → Res (List Byte)) (a : Area) (data : List Byte) : Prop where
  order : a.start ≤ a.fileEnd ∧ a.fileEnd < 2 ^ 64 ∧ a.fileEnd - a.start < 2 ^ 63
  length : data.length = a.fileEnd - a.start
  reads : ∀ off len, off + len ≤ data.length → read (a.start + off) len = .ok ((data.drop off).take len)

/-- The memory of this area can not be read. -/
structure AreaHole (read : Nat → Nat → Res (List Byte)) (a : Area) : Prop where
  order : a.start ≤ a.fileEnd ∧ a.fileEnd < 2 ^ 64 ∧ a.fileEnd - a.start < 2 ^ 63
  reads : ∀ len, read a.start len = .exc ∨ read a.start len = .ok []

/-- The parts of memory that can be read and are not input or output, with their addresses. -/
inductive CanalMemory (read : Nat → Nat → Res (List Byte)) : List Area → List (Nat × List Byte) → Prop
  | nil : CanalMemory read [] []
  | io {a as l} : a.io = true → CanalMemory read as l → CanalMemory read (a :: as) l
  | hole {a as l} : AreaHole read a → CanalMemory read as l → CanalMemory read (a :: as) l
  | bytes {a as l data} : a.io = false → AreaBytes read a data → CanalMemory read as l → CanalMemory read (a :: as) ((a.start, data) :: l)

/-- The words of a part: their addresses and values. -/
def partWords (sz : Nat) (m : Nat × List Byte) : List (Nat × Nat) :=
  (List.range (m.2.length / sz)).map (fun i => (m.1 + i * sz, leNat ((m.2.drop (i * sz)).take sz)))

/-- The words of memory. -/
def memWords (sz : Nat) (mem : List (Nat × List Byte)) : List (Nat × Nat) := mem.flatMap (partWords sz)

/-- The parts are made up of whole words. -/
def WholeWords (sz : Nat) (mem : List (Nat × List Byte)) : Prop := ∀ m ∈ mem, m.2.length % sz = 0

/-- What is asked for: an address (`-f a`), or all from one address to before another (`-f a -e b`). -/
structure Asked where
  start : Nat
  stop : Option Nat

def Asked.opts (q : Asked) : List Opt := .startLoc q.start :: q.stop.toList.map .endLoc

def Asked.has (q : Asked) (w : Nat) : Bool := q.stop.elim (decide (w = q.start)) (fun b => decide (q.start ≤ w ∧ w < b))

/-- The addresses of the words, once for each of what is asked for that they are. -/
def references (asked : List Asked) (ws : List (Nat × Nat)) : List Nat := ws.flatMap (fun w => (asked.filter (·.has w.2)).map (fun _ => w.1))

/-- Sorts by falling count, in any way. -/
def SortsDown (sort : List Sym → List Sym) : Prop := ∀ l, (sort l).Perm l ∧ (sort l).Pairwise (fun a b => b.count ≤ a.count)

/-- The word is an address in the symbol, or, if an offset is given, the address that far from its start. -/
def WordRefers (off : Option Nat) (s : Sym) (w : Nat) : Bool :=
  off.elim (decide (s.value.toNat + s.objbase.toNat ≤ w ∧ w < s.value.toNat + s.objbase.toNat + s.size.toNat)) (fun o => decide (w = s.value.toNat + s.objbase.toNat + o))

/-- How many words refer to a symbol. -/
def refCount (off : Option Nat) (ws : List (Nat × Nat)) (s : Sym) : Nat := ws.countP (fun w => WordRefers off s w.2)

/-- A line for each of the symbols some words refer to, by falling number of these. -/
def RefReport (sel : Sym → Prop) (off : Option Nat) (ws : List (Nat × Nat)) (text : List Byte) : Prop :=
  ∃ rows : List Sym, rows.Nodup ∧ (∀ s, s ∈ rows ↔ sel s ∧ 0 < refCount off ws s) ∧ rows.Pairwise (fun a b => refCount off ws b ≤ refCount off ws a) ∧
    text = rows.flatMap (fun s => decimalText (refCount off ws s) ++ asciiText " " ++ s.name ++ asciiText " ( from " ++ s.objname ++ asciiText ")" ++ [10#8])

/-- A line for each word that refers to a symbol: name, address, size, and how far from the start of the symbol. -/
inductive RefLines (sel : Sym → Prop) (off : Option Nat) : List (Nat × Nat) → List Byte → Prop
  | nil : RefLines sel off [] []
  | none {w ws t} : (∀ s, sel s → WordRefers off s w.2 = false) → RefLines sel off ws t → RefLines sel off (w :: ws) t
  | one {w ws t s} : sel s → WordRefers off s w.2 = true → RefLines sel off ws t →
      RefLines sel off (w :: ws) (s.name ++ asciiText " 0x" ++ asciiText (String.ofList (Nat.toDigits 16 w.1)) ++ asciiText " ... size=" ++ decimalText s.size.toNat ++
        asciiText ", diff=" ++ decimalText (w.2 - (s.value.toNat + s.objbase.toNat) : Nat) ++ [10#8] ++ t)

end Pstack.Spec
