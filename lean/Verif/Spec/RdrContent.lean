import Verif.Model.Reader
/-
What a reader object denotes: the byte string it gives access to.
-/
namespace Pstack.Reader

/-- The bytes a reader stands for. -/
def Rdr.content : Rdr → List Byte
  | .mem buf start size => (buf.drop start).take size
  | .file data => data
  | .null => []
  | .window up offset length => (up.content.drop offset).take length

/-- The reader claims only bytes that exist, and 64-bit offsets suffice. -/
def Rdr.WF : Rdr → Prop
  | .mem buf start size => start + size ≤ buf.length ∧ start + size < W64
  | .file data => data.length < W64
  | .null => False
  | .window up offset length => up.WF ∧ offset + length ≤ up.size

/-- A reader that serves a byte string: exact within it, nothing or an exception beyond it. -/
def ServesList (rd : Nat → Nat → Res (List Byte)) (data : List Byte) : Prop :=
  (∀ off count, off ≤ data.length → rd off count = .ok ((data.drop off).take count)) ∧
  (∀ off count, data.length < off → rd off count = .exc ∨ rd off count = .ok [])

/-- Element `i` of the array of `sz`-byte elements at `base`. -/
def element (data : List Byte) (base sz i : Nat) : List Byte := (data.drop (base + i * sz)).take sz

end Pstack.Reader
