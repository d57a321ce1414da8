import Verif.Spec.CallChain
/-
A machine that calls and returns, in functions that keep a frame pointer.
-/
namespace Pstack.Spec
open Pstack.Arch Pstack.Dwarf Pstack.Unwind

/-- The row of code after `push %rbp; mov %rsp, %rbp`: CFA = rbp + 16, rbp saved at CFA - 16, return address at CFA - 8. -/
def framedRow : Row where
  cfa := .regOff 6 16
  rule r := if r = 6 then .offset (-16) else if r = 16 then .offset (-8) else .unspecified

/-- The row of the code where a thread starts: there is no return address. -/
def startRow : Row where
  cfa := .regOff 6 16
  rule r := if r = 16 then .undefined else .unspecified

/-- What matters of the machine: program counter, stack and frame pointers, and memory in words. -/
structure Cpu where
  pc : BitVec 64
  sp : BitVec 64
  bp : BitVec 64
  word : BitVec 64 → BitVec 64

/-- A suspended call: where it will go on, and its stack and frame pointers. -/
structure Caller where
  pc : BitVec 64
  sp : BitVec 64
  bp : BitVec 64

/-- Code of which the process knows the rules. -/
structure Code (p : Proc) where
  /-- Addresses in the body of a function that keeps a frame pointer; in the start function. -/
  framed : BitVec 64 → Prop
  start : BitVec 64 → Prop
  framed_rules : ∀ ip, framed ip → ∃ reloc d fde, RulesAt p ip reloc d fde framedRow ∧ fde.cie.isSignalHandler = false
  start_rules : ∀ ip, start ip → ∃ reloc d fde, RulesAt p ip reloc d fde startRow ∧ fde.cie.isSignalHandler = false

/-- The code of the function running above `callers`. -/
def Code.here {p : Proc} (code : Code p) (callers : List Caller) : BitVec 64 → Prop :=
  if callers = [] then code.start else code.framed

/-- A return address: the call instruction before it is in the function. -/
def Code.Returns {p : Proc} (code : Code p) (callers : List Caller) (pc : BitVec 64) : Prop :=
  pc ≠ 0 ∧ code.here callers (pc - 1) ∧ SignalAt p pc false

/-- Any sequence of calls, returns and other work from the start of a thread. The second argument lists the calls that have
not returned. -/
inductive Run {p : Proc} (code : Code p) : Cpu → List Caller → Prop
  | start (c : Cpu) : code.start c.pc → Run code c []
  | work (c c' : Cpu) (callers : List Caller) : Run code c callers → code.here callers c'.pc →
      c'.bp = c.bp → (callers ≠ [] → ∀ a : BitVec 64, c.bp.toNat ≤ a.toNat → c'.word a = c.word a) → Run code c' callers
  | call (c c' : Cpu) (callers : List Caller) (ret : BitVec 64) : Run code c callers → code.Returns callers ret →
      16 ≤ c.sp.toNat → c.sp.toNat % 8 = 0 → (callers ≠ [] → c.sp.toNat ≤ c.bp.toNat) → code.framed c'.pc →
      c'.bp = c.sp - 16 →
      c'.word (c.sp - 8) = ret → c'.word (c.sp - 16) = c.bp → (∀ a : BitVec 64, c.sp.toNat ≤ a.toNat → c'.word a = c.word a) →
      Run code c' (⟨ret, c.sp, c.bp⟩ :: callers)
  | ret (c c' : Cpu) (e : Caller) (callers : List Caller) : Run code c (e :: callers) → code.here callers c'.pc →
      c'.pc = c.word (c.bp + 8) → c'.sp = c.bp + 16 → c'.bp = c.word c.bp → c'.word = c.word → Run code c' callers

/-- The registers and memory that the process shows are those of the machine. -/
structure Shows (p : Proc) (regs : Regs) (c : Cpu) : Prop where
  pc : regs.user .rip = c.pc
  sp : regs.user .rsp = c.sp
  bp : regs.user .rbp = c.bp
  word : ∀ a : BitVec 64, a.toNat % 8 = 0 → p.mem a.toNat 8 = .ok (leBytes 8 (c.word a).toNat)

end Pstack.Spec
