import Verif.Model.Regs
import Verif.Spec.Dwarf
/-
Registers as bytes: how many a register has, what they stand for, and where the kernel puts them (`user_regs_struct` and `user_fpregs_struct` of x86_64, sys/user.h).
-/
namespace Pstack.Spec
open Pstack.Arch

/-- How many bytes of memory a register takes. -/
def regBytes : RegVal → Nat
  | .u16 _ => 2 | .u32 _ => 4 | .u64 _ => 8 | .i387 _ => 16 | .simd64 _ => 16 | .simd128 _ => 16 | .char _ => 1

/-- The value of a register as a number. -/
def regNumber : RegVal → Nat
  | .u16 v => v.toNat | .u32 v => v.toNat | .u64 v => v.toNat | .i387 v => v.toNat | .simd64 v => v.toNat | .simd128 v => v.toNat | .char v => v.toNat

/-- Where the registers with DWARF numbers 0 to 16 are in `user_regs_struct`: rax, rdx, rcx, rbx, rsi, rdi, rbp, rsp, r8 to r15, rip. -/
def generalPlaces : List Nat := [80, 96, 88, 40, 104, 112, 32, 152, 72, 64, 56, 48, 24, 16, 8, 0, 128]

/-- Where numbers 49 to 55 are: rflags, es, cs, ss, ds, fs, gs. -/
def segmentPlaces : List Nat := [144, 192, 136, 160, 184, 200, 208]

/-- Where the register with this DWARF number is: whether in `user_fpregs_struct`, the offset, and the number of bytes. The numbers below 0 are pstack's own. -/
def regPlace (n : Int) : Option (Bool × Nat × Nat) :=
  if 0 ≤ n ∧ n ≤ 16 then generalPlaces[n.toNat]?.map (fun o => (false, o, 8))
  else if 17 ≤ n ∧ n ≤ 32 then some (true, 160 + 16 * (n - 17).toNat, 16)   -- xmm0 to xmm15
  else if 33 ≤ n ∧ n ≤ 40 then some (true, 32 + 16 * (n - 33).toNat, 16)    -- st0 to st7
  else if 41 ≤ n ∧ n ≤ 48 then some (true, 160 + 16 * (n - 41).toNat, 16)   -- mm0 to mm7, which pstack takes from the xmm registers
  else if 49 ≤ n ∧ n ≤ 55 then segmentPlaces[(n - 49).toNat]?.map (fun o => (false, o, 8))
  else if n = 58 then some (false, 168, 8)   -- fs.base
  else if n = 59 then some (false, 176, 8)   -- gs.base
  else if n = 64 then some (true, 24, 4)     -- mxcsr
  else if n = 65 then some (true, 0, 2)      -- fcw
  else if n = 66 then some (true, 2, 2)      -- fsw
  else if n = -1 then some (true, 4, 2)      -- ftw
  else if n = -2 then some (true, 6, 2)      -- fop
  else if n = -3 then some (true, 8, 8)      -- rip
  else if n = -4 then some (true, 16, 8)     -- rdp
  else if n = -5 then some (true, 28, 4)     -- mxcr_mask
  else none

/-- The registers are those in these two structures. -/
def Recorded (user fp : List Byte) (r : Regs) : Prop :=
  ∀ n isFp off w, regPlace n = some (isFp, off, w) → ∃ v, r.getDwarf n = .ok v ∧ regBytes v = w ∧ regNumber v = leNat (((if isFp then fp else user).drop off).take w)

end Pstack.Spec
