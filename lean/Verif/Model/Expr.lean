import Verif.Model.Regs
import Verif.Model.DwarfReader
/-
Model of DWARF expression evaluation: ExpressionStack, dwarfproc.cc:208-501 and libpstack/proc.h:28-35.
-/
namespace Pstack.Expr
open Pstack.Dwarf Pstack.Arch

/-- A computation with a DWARF cursor that can throw both kinds of exception. -/
def Ev (α : Type) := Nat → Out (α × Nat)

instance : Monad Ev where
  pure a := fun off => .ok (a, off)
  bind p f := fun off => (p off) >>= fun x => f x.1 x.2

/-- A cursor operation. -/
def rd {α : Type} (p : Parse α) : Ev α := fun off => Out.ofRes (p off)
/-- A computation that does not use the cursor. -/
def run {α : Type} (x : Out α) : Ev α := fun off => x >>= fun a => .ok (a, off)

/-- What an evaluation can see: process memory (`proc.io->read`), the frame's registers and CFA, the frame base
(`frame->getFrameBase(proc)`, an arbitrary outcome here; see `getFrameBase` for how it is computed), and the outcome of the
debugging lookups of `DW_OP_GNU_parameter_ref`. -/
structure Env where
  mem : Nat → Nat → Res (List Byte)
  regs : Regs
  cfa : BitVec 64
  frameBase : Out (BitVec 64)
  paramRef : BitVec 64 → Out Unit

/-- The 64-bit word in 8 bytes of memory (x86: little endian). -/
def word (bs : List Byte) : BitVec 64 := bs.foldr (fun b acc => acc <<< 8 ||| b.setWidth 64) 0#64

/-- `io->readObj<Elf::Addr>(addr)`: 8 bytes, an exception on a short read. reader.h:82-92. -/
def readAddr (mem : Nat → Nat → Res (List Byte)) (addr : BitVec 64) : Out (BitVec 64) := do
  let bs ← Out.ofRes (mem addr.toNat 8)
  if bs.length ≠ 8 then .exc else .ok (word bs)

/-- State of an evaluation: the stack (top first), `isValue`, `inReg`, and the local `piece`. proc.h:28-31,
dwarfproc.cc:212-213. -/
structure St where
  stack : List (BitVec 64)
  isValue : Bool
  inReg : Nat
  piece : Nat
  deriving DecidableEq, Repr

/-- `poptop()`: `top()` of an empty stack is undefined. proc.h:32. -/
def St.pop (s : St) : Out (BitVec 64 × St) :=
  match s.stack with
  | [] => .ub
  | v :: stack => .ok (v, { s with stack := stack })

/-- `push(v)`. -/
def St.push (s : St) (v : BitVec 64) : St := { s with stack := v :: s.stack }

/-- `intmax_t` results: signed overflow is undefined. -/
def signed (z : Int) : Out (BitVec 64) := if -2 ^ 63 ≤ z ∧ z < 2 ^ 63 then .ok (BitVec.ofInt 64 z) else .ub

/-- Operators with one operand: abs, neg, not. dwarfproc.cc:283-300. -/
def unop (op : Nat) (a : BitVec 64) : Option (Out (BitVec 64)) :=
  match op with
  | 0x19 => some (signed a.toInt.natAbs)
  | 0x1f => some (signed (- a.toInt))
  | 0x20 => some (.ok (~~~ a))
  | _ => none

/-- Operators with two operands; `a` was pushed first (the second entry), `b` is the top of the stack. Arithmetic on
`uintmax_t` wraps; on `intmax_t` (mul, div, mod) overflow and division by zero are undefined; so are shifts by 64 or
more. dwarfproc.cc:248-260 (minus, plus), 301-419. -/
def binop (op : Nat) (a b : BitVec 64) : Option (Out (BitVec 64)) :=
  match op with
  | 0x1a => some (.ok (b &&& a))
  | 0x1b => some (if b = 0#64 then .ub else signed (a.toInt.tdiv b.toInt))
  | 0x1c => some (.ok (a - b))
  | 0x1d => some (if b = 0#64 then .ub else if a.toInt = -2 ^ 63 ∧ b.toInt = -1 then .ub
                  else signed (a.toInt.tmod b.toInt))
  | 0x1e => some (signed (b.toInt * a.toInt))
  | 0x21 => some (.ok (b ||| a))
  | 0x22 => some (.ok (a + b))
  | 0x24 => some (if b.toNat ≥ 64 then .ub else .ok (a <<< b.toNat))
  | 0x25 => some (if b.toNat ≥ 64 then .ub else .ok (a >>> b.toNat))
  | 0x26 => some (if b.toNat ≥ 64 then .ub else .ok (a.sshiftRight b.toNat))
  | 0x27 => some (.ok (b ^^^ a))
  | 0x29 => some (.ok (if a = b then 1 else 0))
  | 0x2a => some (.ok (if a.toNat ≥ b.toNat then 1 else 0))
  | 0x2b => some (.ok (if a.toNat > b.toNat then 1 else 0))
  | 0x2c => some (.ok (if a.toNat ≤ b.toNat then 1 else 0))
  | 0x2d => some (.ok (if a.toNat < b.toNat then 1 else 0))
  | 0x2e => some (.ok (if a ≠ b then 1 else 0))
  | _ => none

/-- `DW_OP_piece`. dwarfproc.cc:454-468. -/
def pieceOp (s : St) (bytes : BitVec 64) : Out St := do
  let (value, s) ← s.pop
  let mask : BitVec 64 := if bytes.toNat < 8 then BitVec.allOnes 64 <<< (8 * bytes.toNat) else 0#64
  let value := value &&& ~~~ mask
  if s.piece ≠ 0 then do
    let (existing, s) ← s.pop
    -- `existing <<= 8 * bytes`: the product is 64-bit unsigned, a shift of 64 or more is undefined
    if (8 * bytes.toNat) % 2 ^ 64 ≥ 64 then .ub
    else .ok ({ s with piece := s.piece + 1 }.push (value ||| existing <<< ((8 * bytes.toNat) % 2 ^ 64)))
  else .ok ({ s with piece := s.piece + 1 }.push value)

/-- What to do after an operation: go on, or return this value from `eval` at once. -/
abbrev Next := St × Option (BitVec 64)

/-- One operation, the cursor just after the opcode. `nested s start end` is a recursive `eval` on the same stack.
dwarfproc.cc:215-497. -/
def evalOp (env : Env) (d : List Byte) (reloc : BitVec 64)
    (nested : St → Nat → Nat → Out (St × BitVec 64)) (s : St) (op : Nat) : Ev Next :=
  if 0x30 ≤ op ∧ op ≤ 0x4f then pure (s.push (BitVec.ofNat 64 (op - 0x30)), none)
  else if 0x50 ≤ op ∧ op ≤ 0x6f then do
    let v ← run (env.regs.gp (op - 0x50 : Nat))
    pure ({ s with isValue := true, inReg := op - 0x50 }.push v, none)
  else if 0x70 ≤ op ∧ op ≤ 0x8f then do
    let offset ← rd (getsleb128 d)
    let v ← run (env.regs.gp (op - 0x70 : Nat))
    pure (s.push (v + offset), none)
  else if (unop op 0#64).isSome then do
    let (a, s) ← run s.pop
    let v ← run ((unop op a).getD .exc)
    pure (s.push v, none)
  else if (binop op 0#64 0#64).isSome then do
    let (b, s) ← run s.pop
    let (a, s) ← run s.pop
    let v ← run ((binop op a b).getD .exc)
    pure (s.push v, none)
  else match op with
  | 0x06 => do
      let (addr, s) ← run s.pop
      let value ← run (readAddr env.mem addr)
      pure (s.push value, none)
  | 0x11 => do
      let v ← rd (getsleb128 d)
      pure (s.push v, none)
  | 0x10 => do
      let v ← rd (getuleb128 d)
      pure (s.push v, none)
  | 0x0b => do
      let v ← rd (getu16 d)
      pure (s.push (v.signExtend 64), none)
  | 0x0c => do
      let v ← rd (getu32 d)
      pure (s.push (v.setWidth 64), none)
  | 0x0d => do
      let v ← rd (getu32 d)
      pure (s.push (v.signExtend 64), none)
  | 0x23 => do
      let arg ← rd (getuleb128 d)
      let (tos, s) ← run s.pop
      pure (s.push (arg + tos), none)
  | 0x03 => do
      let v ← rd (getuint d 8)
      pure (s.push (v + reloc), none)
  | 0x9c => pure (s.push env.cfa, none)
  | 0x91 => do
      -- the operands of + are unsequenced; both orders end in the same outcome but for which exception comes first
      let fb ← run env.frameBase
      let off ← rd (getsleb128 d)
      pure (s.push (fb + off), none)
  | 0x90 => do
      let reg ← rd (getsleb128 d)
      let v ← run (env.regs.gp (reg.setWidth 32).toInt)
      pure (s.push v, none)
  | 0xa3 => do
      let len ← rd (getuleb128 d)
      let off ← rd getOffset
      let (s, v) ← run (nested s off ((off + len.toNat) % W64))
      pure (s.push v, none)
  | 0xf3 => do
      let len ← rd (getuleb128 d)
      let off ← rd getOffset
      let (s, v) ← run (nested s off ((off + len.toNat) % W64))
      pure (s.push v, none)
  | 0x93 => do
      let bytes ← rd (getuleb128 d)
      let s ← run (pieceOp s bytes)
      pure (s, none)
  | 0x9f => pure (s, none)
  | 0xfa => do
      let off ← rd (getuint d 4)
      run (env.paramRef off)
      pure (s, some (BitVec.allOnes 64))
  | _ => rd throwExc

/-- `ExpressionStack::eval(proc, reader, frame, reloc)` on a stack `s` with the cursor's offset and end: the loop runs
until the offset is exactly the end. The fuel bounds both the operations and the nesting (every operation consumes at
least its opcode, so `d.length + 1` suffices; `evalLoop_fuel` proves it). dwarfproc.cc:208-501. -/
def evalLoop (env : Env) (d : List Byte) (reloc : BitVec 64) : Nat → St → Nat → Nat → Out (St × BitVec 64)
  | 0, _, _, _ => .ub
  | fuel + 1, s, off, endOff =>
      if off = endOff then do
        let (v, s) ← s.pop
        return (s, v)
      else do
        let (op, off) ← Out.ofRes (getu8 d off)
        let (r, off) ← evalOp env d reloc
          (fun s off endOff => do
            let (s', v) ← evalLoop env d reloc fuel { s with isValue := false, piece := 0 } off endOff
            return ({ s' with piece := s.piece }, v)) s op.toNat off
        match r with
        | (s, some v) => .ok (s, v)
        | (s, none) => evalLoop env d reloc fuel s off endOff

/-- A call of `eval` on a stack holding `stack`. dwarfproc.cc:208-213. -/
def eval (env : Env) (d : List Byte) (reloc : BitVec 64) (stack : List (BitVec 64)) (inReg : Nat) (off endOff : Nat) :
    Out (St × BitVec 64) :=
  evalLoop env d reloc (d.length + 1) ⟨stack, false, inReg, 0⟩ off endOff

end Pstack.Expr
