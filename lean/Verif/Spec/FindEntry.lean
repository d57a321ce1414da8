import Verif.Spec.Ranges
import Verif.Spec.Kids
/-
The entries (of functions, or of inlined functions) that have an address.
-/
namespace Pstack.Spec
open Pstack.Die

/-- The entry has not both a low and a high address. -/
def NoBounds (e : DieEntry) : Prop := e.find 0x11 = none ∨ e.find 0x12 = none

/-- The entry says that it has the address. -/
def SaysIn (d : Sections) (xs : List DieUnit) (uo : Nat) (x : DieUnit) (addr : Nat) (a : Nat × DieEntry) : Prop :=
  (∃ lo hi, EntryBounds d x a.2 lo hi ∧ lo ≤ addr ∧ addr < hi) ∨
  (∃ l, EntryRanges d xs uo x a.1 a.2 l ∧ NoBounds a.2 ∧ ∃ r ∈ l, r.1 ≤ addr ∧ addr < r.2)

/-- The entry says that it does not have it. -/
def SaysOut (d : Sections) (xs : List DieUnit) (uo : Nat) (x : DieUnit) (addr : Nat) (a : Nat × DieEntry) : Prop :=
  (∃ lo hi, EntryBounds d x a.2 lo hi ∧ ¬(lo ≤ addr ∧ addr < hi)) ∨
  (∃ l, EntryRanges d xs uo x a.1 a.2 l ∧ NoBounds a.2 ∧ ¬∃ r ∈ l, r.1 ≤ addr ∧ addr < r.2)

/-- The entry says nothing about addresses. -/
def SaysNothing (xs : List DieUnit) (uo : Nat) (a : Nat × DieEntry) : Prop := NoBounds a.2 ∧ Inherits xs 0x55 uo a.1 a.2 none

/-- It is one of these three, and the address is not the end of one of the ranges of the entry (`C58_not_end`). -/
def Told (d : Sections) (xs : List DieUnit) (uo : Nat) (x : DieUnit) (addr : Nat) (a : Nat × DieEntry) : Prop :=
  (SaysIn d xs uo x addr a ∨ SaysOut d xs uo x addr a ∨ SaysNothing xs uo a) ∧ ∀ l, EntryRanges d xs uo x a.1 a.2 l → ∀ r ∈ l, addr ≠ r.2

/-- `a` is in the list or below, and `P` holds of all entries in the list or below that it is below. -/
inductive Forest.Reaches {α : Type} (P : α → Prop) : Forest α → α → Prop
  | leaf {a r} : Reaches P (.leaf a r) a
  | node {a k r} : Reaches P (.node a k r) a
  | under {a b k r} : P b → Reaches P k a → Reaches P (.node b k r) a
  | afterLeaf {a b r} : Reaches P r a → Reaches P (.leaf b r) a
  | afterNode {a b k r} : Reaches P r a → Reaches P (.node b k r) a

/-- An entry in the list or below, with this tag and this address, and not below one that does not have the address. -/
def Hit (d : Sections) (xs : List DieUnit) (uo : Nat) (x : DieUnit) (addr tag : Nat) (F : Forest (Nat × DieEntry)) (a : Nat × DieEntry) : Prop :=
  F.Reaches (fun b => ¬SaysOut d xs uo x addr b) a ∧ a.2.decl.tag = tag ∧ SaysIn d xs uo x addr a

/-- An entry below `a0` (whose children are `F`) that has the address. `a0` itself counts if `skip` is false. -/
def HitFrom (d : Sections) (xs : List DieUnit) (uo : Nat) (x : DieUnit) (addr tag : Nat) (skip : Bool) (a0 : Nat × DieEntry) (F : Forest (Nat × DieEntry)) (a : Nat × DieEntry) : Prop :=
  (skip = false ∧ a = a0 ∧ a0.2.decl.tag = tag ∧ SaysIn d xs uo x addr a0) ∨ (¬SaysOut d xs uo x addr a0 ∧ Hit d xs uo x addr tag F a)

/-- Of the entries `H` the first one in the section; nothing, if there is none. -/
def FirstOf (d : Sections) (xs : List DieUnit) (uo : Nat) (x : DieUnit) (H : Nat × DieEntry → Prop) (r : Option DIE) : Prop :=
  (r = none ∧ ∀ a, ¬H a) ∨ ∃ z a, r = some z ∧ IsEntry d xs z uo x a.1 a.2 ∧ H a ∧ ∀ b, H b → a.1 ≤ b.1

/-- Inlined functions (0x1d) that have the address, one below the other: the first below the entry `a` (whose children are `K`), the first below that one, and so on
until there are no more. -/
inductive InlineChain (d : Sections) (xs : List DieUnit) (uo : Nat) (x : DieUnit) (addr : Nat) : Nat × DieEntry → Forest (Nat × DieEntry) → List (Nat × DieEntry) → Prop
  | stop {a K} : (∀ b, ¬HitFrom d xs uo x addr 0x1d true a K b) → InlineChain d xs uo x addr a K []
  | more {a K b L l} : HitFrom d xs uo x addr 0x1d true a K b → (∀ c, HitFrom d xs uo x addr 0x1d true a K c → b.1 ≤ c.1) → K.KidsOf b L → InlineChain d xs uo x addr b L l →
      InlineChain d xs uo x addr a K (b :: l)

/-- Of two inlined functions that have the address one is below the other. -/
def Nested (d : Sections) (xs : List DieUnit) (uo : Nat) (x : DieUnit) (addr : Nat) (K : Forest (Nat × DieEntry)) : Prop :=
  ∀ b c, Hit d xs uo x addr 0x1d K b → Hit d xs uo x addr 0x1d K c → b.1 < c.1 → ∃ L, K.KidsOf b L ∧ c ∈ L.all

/-- The `DIE`s are these entries. -/
def AreEntries (d : Sections) (xs : List DieUnit) (uo : Nat) (x : DieUnit) : List DIE → List (Nat × DieEntry) → Prop
  | [], [] => True
  | z :: zs, a :: as => IsEntry d xs z uo x a.1 a.2 ∧ AreEntries d xs uo x zs as
  | _, _ => False

end Pstack.Spec
