import Verif.Basic
/-
Model of the x86_64 register file: struct CoreRegisters, libpstack/arch.h:75-100, 121-203 and
libpstack/arch-x86_64.h:97-258.
-/
namespace Pstack

/-- Outcome of the code that walks stacks. It matters there which exceptions are thrown, because some handlers catch
`pstack::Exception` only: `exc` is a `pstack::Exception`, `stdexc` any other `std::exception` (`std::logic_error`,
`std::bad_variant_access`). `ub` and `abort` as for `Res`. -/
inductive Out (α : Type) where
  | ok (a : α)
  | exc
  | stdexc
  | ub
  | abort
  deriving Repr, DecidableEq

namespace Out

@[simp] def bind {α β : Type} : Out α → (α → Out β) → Out β
  | ok a, f => f a
  | exc, _ => exc
  | stdexc, _ => stdexc
  | ub, _ => ub
  | abort, _ => abort

instance : Monad Out where
  pure := Out.ok
  bind := Out.bind

/-- Functions of the lower layers throw only `pstack::Exception`. -/
@[simp] def ofRes {α : Type} : Res α → Out α
  | .ok a => ok a
  | .exc => exc
  | .ub => ub
  | .abort => abort

@[simp] theorem pure_eq {α : Type} (a : α) : (pure a : Out α) = ok a := rfl
@[simp] theorem bind_ok {α β : Type} (a : α) (f : α → Out β) : (ok a >>= f) = f a := rfl
@[simp] theorem bind_exc {α β : Type} (f : α → Out β) : ((exc : Out α) >>= f) = exc := rfl
@[simp] theorem bind_stdexc {α β : Type} (f : α → Out β) : ((stdexc : Out α) >>= f) = stdexc := rfl
@[simp] theorem bind_ub {α β : Type} (f : α → Out β) : ((ub : Out α) >>= f) = ub := rfl
@[simp] theorem bind_abort {α β : Type} (f : α → Out β) : ((abort : Out α) >>= f) = abort := rfl

theorem bind_eq_ok {α β : Type} {x : Out α} {f : α → Out β} {b : β} :
    (x >>= f) = ok b ↔ ∃ a, x = ok a ∧ f a = ok b := by
  cases x <;> simp

end Out

namespace Arch

/-- The fields of `user_regs_struct` that have a DWARF number (each is an `unsigned long long`, i.e. a `gpreg`).
arch-x86_64.h:100-199. -/
inductive UserReg
  | rax | rdx | rcx | rbx | rsi | rdi | rbp | rsp | r8 | r9 | r10 | r11 | r12 | r13 | r14 | r15 | rip
  | eflags | es | cs | ss | ds | fs | gs | fs_base | gs_base
  deriving DecidableEq, Repr

/-- `CoreRegisters`: `user` and `fp` (`user_fpregs_struct`). The x87 and SSE areas are arrays of 16-byte registers.
arch.h:89-100. -/
structure Regs where
  user : UserReg → BitVec 64
  st : Nat → BitVec 128       -- st_space, 8 entries
  xmm : Nat → BitVec 128      -- xmm_space, 16 entries
  mxcsr : BitVec 32
  mxcrMask : BitVec 32
  cwd : BitVec 16
  swd : BitVec 16
  ftw : BitVec 16
  fop : BitVec 16
  fpRip : BitVec 64
  fpRdp : BitVec 64

/-- The alternatives of `RegisterValue` that registers use. arch.h:67-87. -/
inductive RegVal
  | u16 (v : BitVec 16)
  | u32 (v : BitVec 32)
  | u64 (v : BitVec 64)          -- unsigned long long
  | i387 (v : BitVec 128)
  | simd64 (v : BitVec 128)      -- sizeof (Simd64) is 16
  | simd128 (v : BitVec 128)
  | char (v : BitVec 8)
  deriving DecidableEq, Repr

/-- Where `opReg` finds a register. -/
inductive Slot
  | user (r : UserReg)
  | xmm (i : Nat)
  | st (i : Nat)
  | mmx (i : Nat)     -- typed Simd64, but located in xmm_space
  | mxcsr | mxcrMask | cwd | swd | ftw | fop | fpRip | fpRdp
  | unused            -- the local `char notused{}`
  deriving DecidableEq, Repr

open UserReg in
/-- Cases 0 to 16, in order. arch-x86_64.h:100-150. -/
def general : List UserReg := [rax, rdx, rcx, rbx, rsi, rdi, rbp, rsp, r8, r9, r10, r11, r12, r13, r14, r15, rip]
open UserReg in
/-- Cases 49 to 55, in order. arch-x86_64.h:170-190. -/
def segments : List UserReg := [eflags, es, cs, ss, ds, fs, gs]

/-- The `switch (reg)` of `opReg`. arch-x86_64.h:97-257. `none` is the thrown `std::logic_error`. -/
def slotOf (reg : Int) : Option Slot :=
  if 0 ≤ reg ∧ reg ≤ 16 then general[reg.toNat]?.map .user
  else if 17 ≤ reg ∧ reg ≤ 32 then some (.xmm (reg - 17).toNat)
  else if 33 ≤ reg ∧ reg ≤ 40 then some (.st (reg - 33).toNat)
  else if 41 ≤ reg ∧ reg ≤ 48 then some (.mmx (reg - 41).toNat)
  else if 49 ≤ reg ∧ reg ≤ 55 then segments[(reg - 49).toNat]?.map .user
  else if reg = 58 then some (.user .fs_base)
  else if reg = 59 then some (.user .gs_base)
  else if 60 ≤ reg ∧ reg ≤ 61 then some .unused
  else if reg = 64 then some .mxcsr
  else if reg = 65 then some .cwd
  else if reg = 66 then some .swd
  else if 67 ≤ reg ∧ reg ≤ 154 then some .unused
  else if reg = -1 then some .ftw
  else if reg = -2 then some .fop
  else if reg = -3 then some .fpRip
  else if reg = -4 then some .fpRdp
  else if reg = -5 then some .mxcrMask
  else none

/-- `CoreRegisters::getDwarf`. arch.h:199-203 with `regop(Get, ...)` arch.h:136-183. -/
def Regs.getDwarf (r : Regs) (reg : Int) : Out RegVal :=
  match slotOf reg with
  | none => .stdexc
  | some (.user u) => .ok (.u64 (r.user u))
  | some (.xmm i) => .ok (.simd128 (r.xmm i))
  | some (.st i) => .ok (.i387 (r.st i))
  | some (.mmx i) => .ok (.simd64 (r.xmm i))
  | some .mxcsr => .ok (.u32 r.mxcsr)
  | some .mxcrMask => .ok (.u32 r.mxcrMask)
  | some .cwd => .ok (.u16 r.cwd)
  | some .swd => .ok (.u16 r.swd)
  | some .ftw => .ok (.u16 r.ftw)
  | some .fop => .ok (.u16 r.fop)
  | some .fpRip => .ok (.u64 r.fpRip)
  | some .fpRdp => .ok (.u64 r.fpRdp)
  | some .unused => .ok (.char 0)

/-- Pointwise update. -/
def upd {α β : Type} [DecidableEq α] (f : α → β) (a : α) (b : β) : α → β := fun x => if x = a then b else f x

/-- `CoreRegisters::setDwarf(reg, RegisterValue)`: `get<T>` on the wrong alternative throws `std::bad_variant_access`.
arch.h:195-197 with `regop(Set, ...)` arch.h:131-178. -/
def Regs.setDwarf (r : Regs) (reg : Int) (v : RegVal) : Out Regs :=
  match slotOf reg, v with
  | none, _ => .stdexc
  | some (.user u), .u64 v => .ok { r with user := upd r.user u v }
  | some (.xmm i), .simd128 v => .ok { r with xmm := upd r.xmm i v }
  | some (.st i), .i387 v => .ok { r with st := upd r.st i v }
  | some (.mmx i), .simd64 v => .ok { r with xmm := upd r.xmm i v }
  | some .mxcsr, .u32 v => .ok { r with mxcsr := v }
  | some .mxcrMask, .u32 v => .ok { r with mxcrMask := v }
  | some .cwd, .u16 v => .ok { r with cwd := v }
  | some .swd, .u16 v => .ok { r with swd := v }
  | some .ftw, .u16 v => .ok { r with ftw := v }
  | some .fop, .u16 v => .ok { r with fop := v }
  | some .fpRip, .u64 v => .ok { r with fpRip := v }
  | some .fpRdp, .u64 v => .ok { r with fpRdp := v }
  | some .unused, .char _ => .ok r
  | _, _ => .stdexc

/-- `std::get<gpreg>(regs.getDwarf(reg))`. -/
def Regs.gp (r : Regs) (reg : Int) : Out (BitVec 64) := do
  match ← r.getDwarf reg with
  | .u64 v => .ok v
  | _ => .stdexc

end Arch
end Pstack
