import Verif.Spec.Lines
/-
Public names (DWARF 4, 6.1.1): a set for each unit.
-/
namespace Pstack.Spec

/-- A set: the unit it is about, and its names with the offsets of their entries. The list ends with an offset of 0 (`ended`), or where the set does. -/
structure PubSet where
  version : Nat
  infoOffset : Nat
  infoLength : Nat
  names : List (Nat × List Byte)
  ended : Bool

def pubNameBytes (l : List (Nat × List Byte)) : List Byte := (l.map (fun p => leBytes 4 p.1 ++ (p.2 ++ [0#8]))).flatten

def PubSet.body (p : PubSet) : List Byte := leBytes 2 p.version ++ (leBytes 4 p.infoOffset ++ (leBytes 4 p.infoLength ++ (pubNameBytes p.names ++ (if p.ended then leBytes 4 0 else []))))

def PubSet.encode (p : PubSet) : List Byte := leBytes 4 p.body.length ++ p.body

structure PubSet.WF (p : PubSet) : Prop where
  version : p.version < 2 ^ 16
  offset : p.infoOffset < 2 ^ 32
  length : p.infoLength < 2 ^ 32
  names : ∀ q ∈ p.names, 0 < q.1 ∧ q.1 < 2 ^ 32 ∧ GoodName q.2
  size : p.body.length < 0xfffffff0

def encodePubSets (l : List PubSet) : List Byte := (l.map PubSet.encode).flatten

end Pstack.Spec
