import Verif.Model.Cfi
import Verif.Model.Json
/-
Model of dump.cc:37-236: the JSON text of the instructions of a call frame program.
-/
namespace Pstack.DumpCfa
open Pstack.Reader Pstack.Dwarf

/-- The characters of a string literal. -/
def lit (s : String) : List Byte := s.toList.map (fun c => BitVec.ofNat 8 c.toNat)

/-- The switch of `dumpCFAInsn`: the name of the instruction, and the fields written after it. `op` is the first byte. The name is
that of `cfainsns.h`. `int(r->getu32())` is negative if the top bit is set. `jo.field` writes to the stream before the operands
that follow are read; here an exception gives no text at all. The address length of the reader is 8. dump.cc:52-220,
cfainsns.h:1-38. -/
def dumpOp (d : List Byte) (op : Byte) : Parse (String × List (String × Int)) :=
  match (op &&& 0xc0#8).toNat with
  | 0x40 => pure ("DW_CFA_advance_loc", [("delta", ((op &&& 0x3f#8).toNat : Int))])
  | 0x80 => do
      let offset ← getuleb128 d
      pure ("DW_CFA_offset", [("register", ((op &&& 0x3f#8).toNat : Int)), ("offset", (offset.toNat : Int))])
  | 0xc0 => pure ("DW_CFA_restore", [("register", ((op &&& 0x3f#8).toNat : Int))])
  | _ =>
    match op.toNat with
    | 0x00 => pure ("DW_CFA_nop", [])
    | 0x01 => do
        let arg ← getuint d 8
        pure ("DW_CFA_set_loc", [("arg", (arg.toNat : Int))])
    | 0x02 => do
        let arg ← getu8 d
        pure ("DW_CFA_advance_loc1", [("arg", (arg.toNat : Int))])
    | 0x03 => do
        let arg ← getu16 d
        pure ("DW_CFA_advance_loc2", [("arg", (arg.toNat : Int))])
    | 0x04 => do
        let arg ← getu32 d
        pure ("DW_CFA_advance_loc4", [("arg", arg.toInt)])
    | 0x05 => do
        let reg ← getuleb128 d
        let arg ← getuleb128 d
        pure ("DW_CFA_offset_extended", [("reg", (reg.toNat : Int)), ("arg", (arg.toNat : Int))])
    | 0x06 => do
        let reg ← getuleb128 d
        pure ("DW_CFA_restore_extended", [("reg", (reg.toNat : Int))])
    | 0x07 => do
        let reg ← getuleb128 d
        pure ("DW_CFA_undefined", [("reg", (reg.toNat : Int))])
    | 0x08 => do
        let reg ← getuleb128 d
        pure ("DW_CFA_same_value", [("reg", (reg.toNat : Int))])
    | 0x09 => do
        let reg1 ← getuleb128 d
        let reg2 ← getuleb128 d
        pure ("DW_CFA_register", [("reg1", (reg1.toNat : Int)), ("reg2", (reg2.toNat : Int))])
    | 0x0a => pure ("DW_CFA_remember_state", [])
    | 0x0b => pure ("DW_CFA_restore_state", [])
    | 0x0c => do
        let reg ← getuleb128 d
        let offset ← getuleb128 d
        pure ("DW_CFA_def_cfa", [("reg", (reg.toNat : Int)), ("offset", (offset.toNat : Int))])
    | 0x0d => do
        let reg ← getuleb128 d
        pure ("DW_CFA_def_cfa_register", [("reg", (reg.toNat : Int))])
    | 0x0e => do
        let offset ← getuleb128 d
        pure ("DW_CFA_def_cfa_offset", [("offset", (offset.toNat : Int))])
    | 0x0f => do
        let len ← getuleb128 d
        skip len.toNat
        pure ("DW_CFA_def_cfa_expression", [("len", (len.toNat : Int))])
    | 0x10 => do
        let reg ← getuleb128 d
        let len ← getuleb128 d
        skip len.toNat
        pure ("DW_CFA_expression", [("reg", (reg.toNat : Int)), ("length", (len.toNat : Int))])
    | 0x11 => do
        let reg ← getuleb128 d
        let scale ← getsleb128 d
        pure ("DW_CFA_offset_extended_sf", [("register", (reg.toNat : Int)), ("scale", scale.toInt)])
    | 0x12 => do
        let reg ← getuleb128 d
        let off ← getuleb128 d
        pure ("DW_CFA_def_cfa_sf", [("register", (reg.toNat : Int)), ("offset", (off.toNat : Int))])
    | 0x13 => do
        let offset ← getuleb128 d
        pure ("DW_CFA_def_cfa_offset_sf", [("offset", (offset.toNat : Int))])
    | 0x16 => do
        let reg ← getuleb128 d
        let reg := reg.setWidth 32
        let len ← getuleb128 d
        let off ← getOffset
        skip len.toNat
        pure ("DW_CFA_val_expression", [("register", (reg.toNat : Int)), ("length", (len.toNat : Int)), ("offset", (off : Int))])
    | 0x2d => pure ("DW_CFA_GNU_window_save", [])
    | 0x2e => do
        let size ← getuleb128 d
        pure ("DW_CFA_GNU_args_size", [("size", (size.toNat : Int))])
    | 0x2f => do
        let reg ← getuleb128 d
        let scale ← getsleb128 d
        pure ("DW_CFA_GNU_negative_offset_extended", [("register", (reg.toNat : Int)), ("scale", scale.toInt)])
    | _ => throwExc

/-- The object written. dump.cc:56, 74. -/
def object (x : String × List (String × Int)) : Json.Tree (List Byte) :=
  .obj true ((lit "type", .str (lit x.1)) :: x.2.map (fun f => (lit f.1, .int f.2)))

/-- `dumpCFAInsn`. dump.cc:51-220. -/
def dumpInsn (d : List Byte) (off : Nat) : Res (List Char × Nat) := do
  let (op, off) ← getu8 d off
  let (x, off) ← dumpOp d op off
  let t ← Json.print (object x)
  return (t, off)

/-- The loop. It ends when the cursor is exactly at the end. Fuel bounds the number of instructions. dump.cc:229-233. -/
def dumpLoop (d : List Byte) (endOff : Nat) : Nat → List Char → Nat → Res (List Char)
  | 0, _, _ => .ub
  | fuel + 1, sep, off =>
    if off = endOff then .ok []
    else do
      let (t, off) ← dumpInsn d off
      let ts ← dumpLoop d endOff fuel ",\n".toList off
      return sep ++ t ++ ts

/-- The text for a range of a section. dump.cc:222-236. -/
def dumpInsns (d : List Byte) (start endOff fuel : Nat) : Res (List Char) := do
  let t ← dumpLoop d endOff fuel [] start
  return "[ ".toList ++ t ++ "]".toList

end Pstack.DumpCfa
