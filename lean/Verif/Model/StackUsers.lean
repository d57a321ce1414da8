import Verif.Model.Args
import Verif.Model.Cfi
import Verif.Model.Elf
/-
Model of the program `stackusers`: stackusers.cc.
-/
namespace Pstack.StackUsers
open Pstack.Dwarf Pstack.Reader Pstack.Elf Pstack.Args

/-- What the program uses of the object: its symbols, `getSegments(PT_LOAD)`, and the frame section with `CFI::findFDE` (Model/Cfi.lean). stackusers.cc:7-20, dwarfproc.cc:659-667, 721-727 -/
structure Image where
  tab : Symtab
  loads : List Phdr
  cfi : Option (List Byte × (Nat → Res (Option FDE)))

/-- `if (reg.type == OFFSET) maxoff = std::max(maxoff, reg.u.offset)`. stackusers.cc:33-34, 35-36 -/
def deeper (m : Int) (u : RegUnwind) : Int := if u.type = .offset then max m u.w0.toInt else m

/-- The keys a map of registers can have. -/
def registerKeys : List (BitVec 32) := (List.range (2 ^ 32)).map (BitVec.ofNat 32)

/-- The loop over `cf.registers` and the CFA after it. The map is walked in another order, of which the maximum is independent. stackusers.cc:32-36 -/
def deepest (m : Int) (f : CallFrame) : Int :=
  deeper (registerKeys.foldl (fun m r => match f.registers r with
    | none => m
    | some u => deeper m u) m) f.cfaValue

/-- `execInsns` with the function that is called before each instruction and at the end: the offset, and the address seen last. dwarf.h:992-1184, stackusers.cc:24-39 -/
def watch (d : List Byte) (cie : CIE) (dframe : CallFrame) (endOff : Nat) : Nat → ExecState → Nat → Int → Res (Int × BitVec 64)
  | 0, _, _, _ => .ub
  | fuel + 1, st, off, m =>
      if off = endOff then .ok (deepest m st.frame, st.addr)
      else do
        let (st', off) ← execOne d cie dframe st off
        watch d cie dframe endOff fuel st' off (deepest m st.frame)

/-- The figures for an address: `maxoff` and `end`. stackusers.cc:21-39 -/
def stackUse (d : List Byte) (f : FDE) (start : Nat) : Res (Int × BitVec 64) := do
  let df ← f.defaultFrame d
  watch d f.cie df f.endOff (d.length + 1) ⟨BitVec.ofNat 64 start, df, []⟩ f.instructions 0

/-- `loc.fde()`, dereferenced. stackusers.cc:19-24 -/
def frameEntry (img : Image) (a : Nat) : Res (List Byte × FDE) :=
  match img.cfi with
  | none => .ub
  | some (d, find) => do
      match ← find a with
      | none => .ub
      | some f => .ok (d, f)

/-- The line for a symbol. stackusers.cc:19-44 -/
def userLine (img : Image) (s : Sym) : Res (List Byte) := do
  let (d, f) ← frameEntry img s.value
  let (m, last) ← stackUse d f s.value
  let n ← img.tab.nameOf s
  .ok (dec m ++ (say "\t" ++ (dec ((last.toNat + W64 - s.value + 1) % W64 : Nat) ++ (say "\t" ++ (dec s.size ++ (say "\t" ++ (n ++ say "\n")))))))

/-- The loop over the symbols; `last` is the segment that `getSegmentForAddress` remembers. What was written before an exception or a crash is not kept: only the text of a run that ends well is
spoken of. stackusers.cc:10-45 -/
def usersOf (img : Image) (funcs : List (List Byte)) : List Sym → Option Phdr → Res (List Byte)
  | [], _ => .ok []
  | s :: rest, last =>
      if s.size = 0 then usersOf img funcs rest last
      else
        match getSegmentForAddress img.loads last s.value with
        | (_, none) => .ub
        | (last, some seg) =>
            if seg.flags &&& 1 = 0 then usersOf img funcs rest last
            else do
              let n ← img.tab.nameOf s
              if funcs ≠ [] ∧ n ∉ funcs then usersOf img funcs rest last
              else do
                let line ← userLine img s
                let text ← usersOf img funcs rest last
                .ok (line ++ text)

/-- `processImage`. stackusers.cc:6-46 -/
def processImage (img : Image) (funcs : List (List Byte)) (last : Option Phdr) : Res (List Byte) := do
  let syms ← img.tab.entries
  usersOf img funcs syms last

end Pstack.StackUsers
