import Verif.Spec.Dwarf
import Verif.Spec.Reader
/-
Specifications for call frame information, independent of the interpreter and the decoder.
-/
namespace Pstack.Spec

/-- Value formats of encoded pointers (Linux Standard Base, DW_EH_PE). -/
inductive PtrFmt | udata2 | udata4 | udata8 | sdata2 | sdata4 | sdata8 | uleb128 | sleb128
  deriving DecidableEq

/-- Low nibble of the encoding byte. -/
def PtrFmt.code : PtrFmt → Nat
  | .uleb128 => 0x01 | .udata2 => 0x02 | .udata4 => 0x03 | .udata8 => 0x04
  | .sleb128 => 0x09 | .sdata2 => 0x0a | .sdata4 => 0x0b | .sdata8 => 0x0c

/-- The numbers a format can hold. -/
def PtrFmt.Fits : PtrFmt → Int → Prop
  | .udata2, v => 0 ≤ v ∧ v < 2 ^ 16
  | .udata4, v => 0 ≤ v ∧ v < 2 ^ 32
  | .udata8, v => 0 ≤ v ∧ v < 2 ^ 64
  | .uleb128, v => 0 ≤ v ∧ v < 2 ^ 64
  | .sdata2, v => -2 ^ 15 ≤ v ∧ v < 2 ^ 15
  | .sdata4, v => -2 ^ 31 ≤ v ∧ v < 2 ^ 31
  | .sdata8, v => -2 ^ 63 ≤ v ∧ v < 2 ^ 63
  | .sleb128, v => -2 ^ 63 ≤ v ∧ v < 2 ^ 63

/-- The bytes a writer emits for a number in a format. -/
def PtrFmt.encode : PtrFmt → Int → List Byte
  | .udata2, v => leBytes 2 (v % 2 ^ 16).toNat
  | .udata4, v => leBytes 4 (v % 2 ^ 32).toNat
  | .udata8, v => leBytes 8 (v % 2 ^ 64).toNat
  | .sdata2, v => leBytes 2 (v % 2 ^ 16).toNat
  | .sdata4, v => leBytes 4 (v % 2 ^ 32).toNat
  | .sdata8, v => leBytes 8 (v % 2 ^ 64).toNat
  | .uleb128, v => encodeU v.toNat
  | .sleb128, v => encodeS v

/-- What the number is relative to. -/
inductive PtrBase | abs | pcrel | textrel | datarel
  deriving DecidableEq

/-- High bits of the encoding byte. -/
def PtrBase.code : PtrBase → Nat
  | .abs => 0x00 | .pcrel => 0x10 | .textrel => 0x20 | .datarel => 0x30

/-- The address the number is relative to: `here` is the address of the encoded bytes, `text`/`data` the section bases. -/
def PtrBase.value (here text data : Nat) : PtrBase → Nat
  | .abs => 0 | .pcrel => here | .textrel => text | .datarel => data

end Pstack.Spec
