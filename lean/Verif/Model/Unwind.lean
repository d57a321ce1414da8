import Verif.Model.Expr
import Verif.Model.Cfi
/-
Model of stack unwinding on x86_64: StackFrame (dwarfproc.cc:12-75, 505-641), Lwp::unwind and the per-thread part of
Process::getStacks (process.cc:980-1195, 1227-1246).
-/
namespace Pstack.Unwind
open Pstack.Dwarf Pstack.Arch Pstack.Expr

/-- What `ProcessLocation` finds for an address that lies in a segment of a mapped object: the load address of the object,
whether the segment is executable, and the object's unwind information (the frame section, and `CFI::findFDE` on
object-relative addresses), if any. proc.h:97-128, dwarfproc.cc:661-735. -/
structure Loc where
  reloc : BitVec 64
  exec : Bool
  cfi : Option (List Byte × (Nat → Res (Option FDE)))

/-- The process, as far as unwinding looks at it: memory (`p.io->read`), objects (`findSegment` + `findDwarf`, see
dwarfproc.cc:680-689; `findDwarf` never returns null), and the frame base and parameter lookups that location expressions
may ask for. -/
structure Proc where
  mem : Nat → Nat → Res (List Byte)
  locate : BitVec 64 → Out (Option Loc)
  frameBase : Regs → BitVec 64 → Out (BitVec 64)
  paramRef : BitVec 64 → Out Unit

/-- `UnwindMechanism` (those that arise on x86_64). proc.h:43-69. -/
inductive Mech | machineRegs | dwarf | framePointer | badIpRecovery | trampoline
  deriving DecidableEq, Repr

/-- `StackFrame`. proc.h:131-152. -/
structure Frame where
  regs : Regs
  cfa : BitVec 64
  mech : Mech
  isSignal : Bool        -- isSignalTrampoline
  fromSignal : Bool      -- unwoundFromTrampoline

/-- `StackFrame::StackFrame`. dwarfproc.cc:505-510, proc.h:138-144. -/
def Frame.new (mech : Mech) (regs : Regs) : Frame := ⟨regs, 0, mech, false, false⟩

/-- `StackFrame::rawIP`. dwarfproc.cc:25-33. -/
def Frame.rawIP (f : Frame) : BitVec 64 := f.regs.user .rip

/-- `ProcessLocation::fde` with the section it was found in. dwarfproc.cc:659-667, proc.h:111. -/
def Loc.fde (loc : Loc) (addr : BitVec 64) : Out (Option (List Byte × FDE)) :=
  match loc.cfi with
  | none => .ok none
  | some (d, find) => do
      let r ← Out.ofRes (find (addr - loc.reloc).toNat)
      return r.map (fun fde => (d, fde))

/-- `location.fde()` for a process address. -/
def Proc.fde (p : Proc) (addr : BitVec 64) : Out (Option (Loc × List Byte × FDE)) := do
  match ← p.locate addr with
  | none => return none
  | some loc =>
      let r ← loc.fde addr
      return r.map (fun x => (loc, x))

/-- The last test of `scopeIP`: is the raw address in a signal handler's entry? dwarfproc.cc:69-73. -/
def Proc.inSignal (p : Proc) (addr : BitVec 64) : Out Bool := do
  match ← p.fde addr with
  | none => return false
  | some (_, _, fde) => return fde.cie.isSignalHandler

/-- `StackFrame::scopeIP`. dwarfproc.cc:35-75. -/
def scopeIP (p : Proc) (f : Frame) : Out (BitVec 64) :=
  let raw := f.rawIP
  if raw = 0 then .ok raw
  else if f.mech = .machineRegs ∨ f.mech = .trampoline then .ok raw
  else if f.isSignal then .ok raw
  else if f.fromSignal then .ok raw
  else do
    if ← p.inSignal raw then return raw
    else return raw - 1

/-- The surroundings of an expression evaluated for a frame with a given CFA. dwarfproc.cc:208-213. -/
def Proc.env (p : Proc) (regs : Regs) (cfa : BitVec 64) : Env :=
  { mem := p.mem, regs := regs, cfa := cfa, frameBase := p.frameBase regs cfa, paramRef := p.paramRef }

/-- Evaluate the expression of a rule: `w0` is the offset and `w1` the length. dwarfproc.cc:558-565, 591-603. -/
def evalRule (p : Proc) (d : List Byte) (reloc : BitVec 64) (regs : Regs) (cfa : BitVec 64) (stack : List (BitVec 64))
    (u : RegUnwind) : Out (BitVec 64) := do
  let (_, v) ← eval (p.env regs cfa) d reloc stack 0 u.w0.toNat ((u.w0.toNat + u.w1.toNat) % W64)
  return v

/-- The CFA. dwarfproc.cc:540-569. -/
def cfaOf (p : Proc) (d : List Byte) (reloc : BitVec 64) (f : Frame) (cf : CallFrame) : Out (BitVec 64) :=
  match cf.cfaValue.type with
  | .same | .undef | .arch => f.regs.gp cf.cfaReg.toInt
  | .valOffset | .valExpression | .reg => .exc
  | .offset => do return (← f.regs.gp cf.cfaReg.toInt) + cf.cfaValue.w0
  | .expression => evalRule p d reloc f.regs f.cfa [] cf.cfaValue

/-- Bytes of memory, all of them or an exception. `readObj`, reader.h:82-92. -/
def readExact (p : Proc) (addr : BitVec 64) (n : Nat) : Out (List Byte) := do
  let bs ← Out.ofRes (p.mem addr.toNat n)
  if bs.length ≠ n then .exc else .ok bs

/-- Little-endian value of bytes. -/
def bytesValue (w : Nat) (bs : List Byte) : BitVec w := bs.foldr (fun b acc => acc <<< 8 ||| b.setWidth w) 0#w

/-- `setDwarf(regno, RegisterFromReader)`: the register's type decides how many bytes are read.
dwarfproc.cc:12-23, 581-585, arch.h:131-178. -/
def readTyped (p : Proc) (reg : Int) (addr : BitVec 64) : Out RegVal :=
  match slotOf reg with
  | none => .stdexc
  | some (.user _) | some .fpRip | some .fpRdp => do return .u64 (word (← readExact p addr 8))
  | some (.xmm _) => do return .simd128 (bytesValue 128 (← readExact p addr 16))
  | some (.st _) => do return .i387 (bytesValue 128 (← readExact p addr 16))
  | some (.mmx _) => do return .simd64 (bytesValue 128 (← readExact p addr 16))
  | some .mxcsr | some .mxcrMask => do return .u32 (bytesValue 32 (← readExact p addr 4))
  | some .cwd | some .swd | some .ftw | some .fop => do return .u16 (bytesValue 16 (← readExact p addr 2))
  | some .unused => do return .char (bytesValue 8 (← readExact p addr 1))

/-- The value a rule gives a register; `none` if the rule leaves it alone. It depends on the callee's registers only.
dwarfproc.cc:580-613. -/
def ruleValue (p : Proc) (d : List Byte) (reloc : BitVec 64) (f : Frame) (cfa : BitVec 64) (regno : Int) (u : RegUnwind) :
    Out (Option RegVal) :=
  match u.type with
  | .offset => do return some (← readTyped p regno (cfa + u.w0))
  | .reg => do return some (← f.regs.getDwarf (u.w0.setWidth 32).toInt)
  | .valExpression => do return some (.u64 (← evalRule p d reloc f.regs cfa [cfa] u))
  | .expression => do
      let a ← evalRule p d reloc f.regs cfa [cfa] u
      return some (.u64 (← readAddr p.mem a))
  | .same => do return some (← f.regs.getDwarf regno)
  | .undef | .arch | .valOffset => return none

/-- One turn of the loop over the rules: a `pstack::Exception` leaves the register alone. dwarfproc.cc:578-621. -/
def applyRule (p : Proc) (d : List Byte) (reloc : BitVec 64) (f : Frame) (cfa : BitVec 64) (out : Regs) (k : Int × RegUnwind) :
    Out Regs :=
  match ruleValue p d reloc f cfa k.1 k.2 with
  | .ok none => .ok out
  | .ok (some v) => out.setDwarf k.1 v
  | .exc => .ok out
  | .stdexc => .stdexc
  | .ub => .ub
  | .abort => .abort

/-- The loop over the rules. -/
def applyRules (p : Proc) (d : List Byte) (reloc : BitVec 64) (f : Frame) (cfa : BitVec 64) :
    Regs → List (Int × RegUnwind) → Out Regs
  | out, [] => .ok out
  | out, k :: ks => do
      let out ← applyRule p d reloc f cfa out k
      applyRules p d reloc f cfa out ks

/-- The entries of the map `registers`, in ascending order of the (signed) key. dwarf.h:536-541. -/
@[irreducible] def entries (cf : CallFrame) : List (Int × RegUnwind) :=
  (List.range (2 ^ 32)).filterMap fun (i : Nat) =>
    (cf.registers (BitVec.ofInt 32 ((i : Int) - 2 ^ 31))).map fun u => ((i : Int) - 2 ^ 31, u)

/-- From the CFA on: `CFA_RESTORE_REGNO` is 7, `IPREG` 16. dwarfproc.cc:570-640. -/
def callerRegs (p : Proc) (d : List Byte) (reloc : BitVec 64) (f : Frame) (cf : CallFrame) (rar : Nat) (cfa : BitVec 64) :
    Out (Option Regs) := do
  let out ← f.regs.setDwarf 7 (.u64 cfa)
  let out ← applyRules p d reloc f cfa out (entries cf)
  if ((cf.registers (BitVec.ofNat 32 rar)).map RegUnwind.type = some .undef) ∨ cfa = 0 then return none
  else if rar ≠ 16 then do
    let v ← out.getDwarf (BitVec.ofNat 32 rar).toInt
    return some (← out.setDwarf 16 v)
  else return some out

/-- The rules for the frame, by location. dwarfproc.cc:513-538. The cache `callFrameForAddr` is left out: it is filled with
what `execInsns` returns (see `cachedRules`). -/
def findRules (p : Proc) (f : Frame) : Out (Loc × List Byte × FDE × BitVec 64) := do
  let ip ← scopeIP p f
  match ← p.fde ip with
  | none => .exc
  | some (loc, d, fde) => return (loc, d, fde, ip - loc.reloc)

/-- `StackFrame::unwind`: also updates the frame's `cfa` and `isSignalTrampoline`. dwarfproc.cc:513-641. -/
def unwind (p : Proc) (f : Frame) : Frame × Out (Option Regs) :=
  match findRules p f with
  | .ok (loc, d, fde, objaddr) =>
      let f := if fde.cie.isSignalHandler then { f with isSignal := true } else f
      match (do let cf ← Out.ofRes (fde.execInsns d objaddr); let cfa ← cfaOf p d loc.reloc f cf; return (cf, cfa)) with
      | .ok (cf, cfa) => ({ f with cfa := cfa }, callerRegs p d loc.reloc f cf fde.cie.rar cfa)
      | .exc => (f, .exc)
      | .stdexc => (f, .stdexc)
      | .ub => (f, .ub)
      | .abort => (f, .abort)
  | .exc => (f, .exc)
  | .stdexc => (f, .stdexc)
  | .ub => (f, .ub)
  | .abort => (f, .abort)

/-- `callFrameForAddr` in front of `execInsns`. dwarfproc.cc:533-538. -/
def cachedRules (d : List Byte) (cache : List (Nat × CallFrame)) (fde : FDE) (objaddr : BitVec 64) :
    List (Nat × CallFrame) × Res CallFrame :=
  match cache.find? (fun e => e.1 == objaddr.toNat) with
  | some e => (cache, .ok e.2)
  | none =>
      match fde.execInsns d objaddr with
      | .ok cf => ((objaddr.toNat, cf) :: cache, .ok cf)
      | r => (cache, r)

/-- What happens after a frame: another one, the end, or the exception that leaves `Lwp::unwind`. -/
inductive Step
  | next (f : Frame)
  | stop
  | fail (o : Out Unit)

/-- The frame a call to a bad address left. process.cc:1060-1080. -/
def badIp (p : Proc) (f : Frame) : Out (Option Frame) := do
  if f.mech = .machineRegs ∨ f.mech = .trampoline ∨ f.fromSignal = true then
    let loc ← p.locate (f.regs.user .rip)
    if (loc.map Loc.exec).getD false then return none
    else do
      let sp := f.regs.user .rsp
      let bs ← Out.ofRes (p.mem sp.toNat 8)
      if bs.length = 8 then
        return some (Frame.new .badIpRecovery { f.regs with user := upd (upd f.regs.user .rsp (sp + 8)) .rip (word bs) })
      else return none
  else return none

/-- Frame pointer unwinding: the new frame and the CFA of this one. process.cc:1130-1185. -/
def framePointer (p : Proc) (f : Frame) : Out (Option (BitVec 64 × Frame)) := do
  let _ ← p.locate f.rawIP
  if f.rawIP ≠ 0 then
    let oldBp := f.regs.user .rbp
    if oldBp = 0 then return none
    else do
      let newIp ← readAddr p.mem (oldBp + 8)
      let newBp ← readAddr p.mem oldBp
      let loc ← p.locate newIp
      if (loc.map Loc.exec).getD false then
        return some (oldBp + 16, Frame.new .framePointer
          { f.regs with user := upd (upd (upd f.regs.user .rsp (oldBp + 16)) .rip newIp) .rbp newBp })
      else return none
  else return none

/-- The `catch` clause: exceptions thrown here leave the function. process.cc:1020-1192. -/
def fallback (p : Proc) (f : Frame) : Frame × Step :=
  match badIp p f with
  | .ok (some nf) => (f, .next nf)
  | .ok none =>
      match framePointer p f with
      | .ok (some (cfa, nf)) => ({ f with cfa := cfa }, .next nf)
      | .ok none => (f, .stop)
      | .exc => (f, .fail .exc)
      | .stdexc => (f, .fail .stdexc)
      | .ub => (f, .fail .ub)
      | .abort => (f, .fail .abort)
  | .exc => (f, .fail .exc)
  | .stdexc => (f, .fail .stdexc)
  | .ub => (f, .fail .ub)
  | .abort => (f, .fail .abort)

/-- One turn of the loop of `Lwp::unwind` on the last frame. process.cc:1000-1192. -/
def step (p : Proc) (f : Frame) : Frame × Step :=
  match unwind p f with
  | (f, .ok none) => (f, .stop)
  | (f, .ok (some regs)) => (f, .next { Frame.new .dwarf regs with fromSignal := f.isSignal })
  | (f, .exc) => fallback p f
  | (f, .stdexc) => fallback p f
  | (f, .ub) => (f, .fail .ub)
  | (f, .abort) => (f, .fail .abort)

/-- The loop of `Lwp::unwind`, from the last frame on. Gives the frames from there on. process.cc:1000-1193. -/
def loop (p : Proc) : Nat → Frame → List Frame × Out Unit
  | 0, f => ([f], .ok ())
  | n + 1, f =>
      match step p f with
      | (f, .stop) => ([f], .ok ())
      | (f, .fail o) => ([f], o)
      | (f, .next nf) =>
          let r := loop p n nf
          (f :: r.1, r.2)

/-- `Lwp::unwind`: the contents of `stack` afterwards and whether it threw; `maxframes` is an `int`. process.cc:980-1193. -/
def unwindThread (p : Proc) (maxframes : Int) (regs : Regs) : List Frame × Out Unit :=
  loop p maxframes.toNat (Frame.new .machineRegs regs)

/-- What `Process::getStacks` keeps for a thread: nothing if unwinding throws. (Other exceptions leave `getStacks`.)
process.cc:1235-1246. -/
def reported (p : Proc) (maxframes : Int) (regs : Regs) : Out (Option (List Frame)) :=
  match unwindThread p maxframes regs with
  | (fs, .ok ()) => .ok (some fs)
  | (_, .exc) => .ok none
  | (_, .stdexc) => .stdexc
  | (_, .ub) => .ub
  | (_, .abort) => .abort

end Pstack.Unwind
