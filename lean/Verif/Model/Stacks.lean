import Verif.Model.Unwind
import Verif.Model.CoreNotes
/-
The stacks of all threads of a process: `getStacks`, `getCoreRegs` and `getTaskName` (process.cc, proc.h, live.cc).
-/
namespace Pstack.Stacks
open Pstack.Arch Pstack.Unwind Pstack.Elf

/-- `getRegs(lwp, code, size, data)`: the bytes written to `data`. -/
abbrev GetRegs := Nat → Nat → Nat → Res (List Byte)

def NT_PRSTATUS : Nat := 1
def NT_FPREGSET : Nat := 2

/-- `getRegset`: an exception unless there is all of it. proc.h:273-287 -/
def regset (get : GetRegs) (lwp code size : Nat) : Res (List Byte) :=
  get lwp code size >>= fun bs => if bs.length = 0 then .exc else if bs.length < size then .exc else .ok bs

/-- The word of `user_regs_struct` (sys/user.h). -/
def userIndex : UserReg → Nat
  | .r15 => 0 | .r14 => 1 | .r13 => 2 | .r12 => 3 | .rbp => 4 | .rbx => 5 | .r11 => 6 | .r10 => 7 | .r9 => 8 | .r8 => 9 | .rax => 10 | .rcx => 11 | .rdx => 12 | .rsi => 13 | .rdi => 14
  | .rip => 16 | .cs => 17 | .eflags => 18 | .rsp => 19 | .ss => 20 | .fs_base => 21 | .gs_base => 22 | .ds => 23 | .es => 24 | .fs => 25 | .gs => 26

/-- `CoreRegisters` with these two structures in it (sys/user.h; arch.h:89-100). -/
def decodeRegs (user fp : List Byte) : Regs where
  user r := BitVec.ofNat 64 (field user (8 * userIndex r) 8)
  cwd := BitVec.ofNat 16 (field fp 0 2)
  swd := BitVec.ofNat 16 (field fp 2 2)
  ftw := BitVec.ofNat 16 (field fp 4 2)
  fop := BitVec.ofNat 16 (field fp 6 2)
  fpRip := BitVec.ofNat 64 (field fp 8 8)
  fpRdp := BitVec.ofNat 64 (field fp 16 8)
  mxcsr := BitVec.ofNat 32 (field fp 24 4)
  mxcrMask := BitVec.ofNat 32 (field fp 28 4)
  st i := BitVec.ofNat 128 (field fp (32 + 16 * i) 16)
  xmm i := BitVec.ofNat 128 (field fp (160 + 16 * i) 16)

/-- `sizeof (user_regs_struct)`, `sizeof (user_fpregs_struct)` -/
def userSize : Nat := 216
def fpSize : Nat := 512

/-- `getCoreRegs`. process.cc:1269-1281 -/
def getCoreRegs (get : GetRegs) (lwp : Nat) : Res Regs := do
  let user ← regset get lwp NT_PRSTATUS userSize
  let fp ← regset get lwp NT_FPREGSET fpSize
  return decodeRegs user fp

/-- What is used of `td_thrinfo_t`. -/
structure Info where
  tid : BitVec 64
  lid : Nat
  type : Int
  deriving DecidableEq

/-- `Lwp`. proc.h:171-177 -/
structure Lwp where
  id : Nat
  frames : List Frame
  name : Option (List Char)
  info : Option Info

/-- The stack of one lwp. Exceptions other than `Exception` leave `getStacks`. process.cc:1235-1246 -/
def addLwp (get : GetRegs) (p : Proc) (maxframes : Int) (name : Nat → Option (List Char)) (id : Nat) (m : OMap Lwp) : Out (OMap Lwp) :=
  match getCoreRegs get id with
  | .exc => .ok m
  | .ub => .ub
  | .abort => .abort
  | .ok regs =>
      reported p maxframes regs >>= fun r =>
        match r with
        | none => .ok m
        | some fs => .ok (OMap.emplace id ⟨id, fs, name id, none⟩ m)

/-- `listLWPs`. process.cc:1235 -/
def addLwps (get : GetRegs) (p : Proc) (maxframes : Int) (name : Nat → Option (List Char)) : List Nat → OMap Lwp → Out (OMap Lwp)
  | [], m => .ok m
  | id :: ids, m => addLwp get p maxframes name id m >>= addLwps get p maxframes name ids

/-- What is known of one thread; none if `thr_get_info` fails. process.cc:1254-1264 -/
def addInfo (m : OMap Lwp) : Option Info → OMap Lwp
  | none => m
  | some i => match OMap.lookup i.lid m with
    | some l => OMap.assign i.lid { l with info := some i } m
    | none => m

/-- `getStacks`; `threads` is none without an agent. process.cc:1227-1267 -/
def getStacks (get : GetRegs) (p : Proc) (maxframes : Int) (name : Nat → Option (List Char)) (lwps : List Nat) (threads : Option (List (Option Info))) : Out (OMap Lwp) :=
  addLwps get p maxframes name lwps [] >>= fun m =>
    match threads with
    | none => .ok m
    | some is => .ok (is.foldl addInfo m)

/-! ### Names -/

/-- `std::getline` -/
def firstLine (t : List Char) : List Char := t.takeWhile (· ≠ '\n')

/-- `line.rfind(c)` -/
def rfind (c : Char) (t : List Char) : Option Nat := (t.reverse.findIdx? (· == c)).map (fun i => t.length - 1 - i)

/-- `getTaskName` of what is in the file `stat`. With a parenthesis closed before it is opened the length wraps round, and is more than there is. live.cc:101-114 -/
def taskName (stat : List Char) : Option (List Char) :=
  let line := firstLine stat
  match line.findIdx? (· == '('), rfind ')' line with
  | some start, some stop => some ((line.drop (start + 1)).take (if stop ≥ start + 1 then stop - start - 1 else 2 ^ 64 + stop - start - 1))
  | _, _ => none

end Pstack.Stacks
