import Verif.Model.Cfi
import Verif.Spec.Frame
/-
What the entries of a frame section stand for, as the decoder's record types.
-/
namespace Pstack.Spec
open Pstack.Dwarf

/-- The common entry written as record `i` that begins at `off`. -/
def CieEnc.meaning (c : CieEnc) (off : Nat) : CIE where
  addressEncoding := ptrEnc c.ptr.1 c.ptr.2 false
  isSignalHandler := c.signal
  codeAlign := BitVec.ofNat 32 c.codeAlign
  dataAlign := BitVec.ofInt 32 c.dataAlign
  rar := c.rar.toNat
  instructions := off + 8 + c.head.length
  endOff := off + 8 + c.bytes.length
  augmentation := c.augString
  lsdaEncoding := c.lsdaEnc

/-- The frame entry written at `off`, whose common entry `c` is at `cieOff`, in a section mapped at `sectionAddr`. -/
def FdeEnc.meaning (f : FdeEnc) (c : CieEnc) (sectionAddr off cieOff : Nat) : FDE where
  iloc := BitVec.ofInt 64 f.start + BitVec.ofNat 64 (c.ptr.2.value (off + 8 + sectionAddr) sectionAddr sectionAddr)
  irange := BitVec.ofInt 64 f.range
  instructions := off + 8 + (f.head c).length
  endOff := off + 8 + (f.bytes c).length
  cie := c.meaning cieOff
  augmentation := if c.aug.isSome then f.aug else []

/-- The frame entry at index `i`, if record `i` is one. -/
def fdeMeaning (es : List Entry) (sectionAddr i : Nat) : Option FDE :=
  match es[i]? with
  | some (.fde f) => (cieAt es f.cie).map (fun c => f.meaning c sectionAddr (offsetOf es i) (offsetOf es f.cie))
  | _ => none

/-- All frame entries of the section, in section order. -/
def fdesOf (es : List Entry) (sectionAddr : Nat) : List FDE :=
  (List.range es.length).filterMap (fdeMeaning es sectionAddr)

/-- The decoder's name for a section flavour. -/
def FrameKind.type : FrameKind → FIType
  | .debugFrame => .debugFrame
  | .ehFrame => .ehFrame

/-- The entry's code range contains the address. -/
def Covers (addr : Nat) (f : FDE) : Prop := f.iloc.toNat ≤ addr ∧ addr < f.iloc.toNat + f.irange.toNat

instance (addr : Nat) (f : FDE) : Decidable (Covers addr f) := by unfold Covers; infer_instance

/-- Sorted by start and not overlapping, ends representable in 64 bits. -/
def Disjoint (fs : List FDE) : Prop :=
  (∀ f ∈ fs, f.iloc.toNat + f.irange.toNat < 2 ^ 64) ∧
  ∀ i j (hi : i < fs.length) (hj : j < fs.length), i < j →
    fs[i].iloc.toNat + fs[i].irange.toNat ≤ fs[j].iloc.toNat

end Pstack.Spec
