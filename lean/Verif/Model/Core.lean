import Verif.Model.Elf
import Verif.Model.Map
/-
Model of post-mortem processes: the objects mapped in a process (process.cc), reading memory of a dead process and its register
notes (dead.cc). Addresses are 64-bit.
-/
namespace Pstack.Core
open Pstack.Reader Pstack.Elf

/-- An ELF object: its reader, its program headers in file order, and `getSegments(PT_LOAD)`. elf.h:288-390. -/
structure Obj where
  io : Rdr
  phdrs : List Phdr
  loads : List Phdr

/-- `Process::objects`: what is mapped, by load address; `none` if `MappedObject::object` cannot find a file for it.
proc.h:222-240, 261. -/
abbrev Objects := OMap (Option Obj)

/-- `addElfObject(name, obj, load)`: `objects.emplace`. process.cc:811. -/
def addElfObject (m : Objects) (load : Nat) (o : Option Obj) : Objects := OMap.emplace load o m

/-- The `lastSegmentForAddress` of the mapped objects (by load address) and of the core. Two mappings of one object share this
memory in the C++; what is remembered never changes a result (C29). elf.h:355. -/
structure Memo where
  objs : Nat → Option Phdr
  core : Option Phdr

/-- Nothing looked up so far. -/
def Memo.init : Memo := ⟨fun _ => none, none⟩

/-- `endVA()`: throws if there is no loadable segment. elf.cc:140-146. -/
def Obj.endVA (o : Obj) : Res Nat :=
  match o.loads.getLast? with
  | none => .exc
  | some p => .ok ((p.vaddr + p.memsz) % W64)

/-- `findSegment(addr)`: `lower_bound`, then one step back. process.cc:924-938. -/
def findSegment (m : Objects) (c : Memo) (addr : Nat) : Res (Memo × Option (Nat × Obj × Phdr)) :=
  match (OMap.below addr m).getLast? with
  | none => .ok (c, none)
  | some (_, none) => .ok (c, none)
  | some (base, some o) => do
      let e ← o.endVA
      if (base + e) % W64 ≥ addr then
        let r := getSegmentForAddress o.loads (c.objs base) (addr - base)
        let c' : Memo := { c with objs := fun b => if b = base then r.1 else c.objs b }
        match r.2 with
        | some s => return (c', some (base, o, s))
        | none => return (c', none)
      else return (c, none)

/-- `readFromHdr(obj, hdr, addr, ptr, size, &toClear)`: the bytes copied and the new `toClear`. dead.cc:119-147. -/
def readFromHdr (io : Rdr) (hdr : Phdr) (addr size toClear : Nat) : Res (List Byte × Nat) := do
  let off := (addr + W64 - hdr.vaddr) % W64
  let bs ← if off < hdr.filesz then do
      let fileSize := min (hdr.filesz - off) size
      let bs ← io.read ((hdr.offset + off) % W64) fileSize
      if bs.length ≠ fileSize then .exc else .ok bs
    else .ok []
  let rv := bs.length
  let off := off + rv
  let size := size - rv
  return (bs, max (if toClear > rv then toClear - rv else 0)
    (if size ≠ 0 ∧ off < hdr.memsz then min size (hdr.memsz - off) else 0))

/-- The part of one round of `CoreReader::read` that asks the core: the bytes copied and `zeroes`. dead.cc:154-168. -/
def coreRead (core : Option Obj) (c : Memo) (addr size : Nat) : Res (Memo × List Byte × Nat) :=
  match core with
  | none => .ok (c, [], 0)
  | some o =>
      let r := getSegmentForAddress o.loads c.core addr
      match r.2 with
      | none => .ok ({ c with core := r.1 }, [], 0)
      | some hdr => do
          let (bs, zeroes) ← readFromHdr o.io hdr addr size 0
          return ({ c with core := r.1 }, bs, zeroes)

/-- The rest of a round: the mapped objects, then zero fill. The flag says whether to go round again. dead.cc:170-190. -/
def objRead (m : Objects) (c : Memo) (addr size zeroes : Nat) : Res (Memo × List Byte × Bool) := do
  let (c, found) ← findSegment m c addr
  match found with
  | none => return (c, List.replicate zeroes 0#8, zeroes != 0)
  | some (base, o, hdr) =>
      let (bs, zeroes) ← readFromHdr o.io hdr (addr - base) size zeroes
      return (c, bs ++ List.replicate zeroes 0#8, true)

/-- `CoreReader::read(remoteAddr, size, ptr)`: the bytes copied (their number is the result). `none`: still running after `fuel`
rounds. An exception leaves `c` unchanged here; in the C++ lookups done before it are remembered. dead.cc:149-192. -/
def read (core : Option Obj) (m : Objects) : Nat → Memo → Nat → Nat → Option (Res (Memo × List Byte))
  | _, c, _, 0 => some (.ok (c, []))
  | 0, _, _, _ + 1 => none
  | fuel + 1, c, addr, size =>
      match coreRead core c addr size with
      | .ok (c, b1, zeroes) =>
          let addr := (addr + b1.length) % W64
          let size := size - b1.length
          if b1.length ≠ 0 ∧ zeroes = 0 then
            (read core m fuel c addr size).map (fun r => do
              let (c, rest) ← r
              return (c, b1 ++ rest))
          else match objRead m c addr size zeroes with
            | .ok (c, b2, more) =>
                if more then
                  (read core m fuel c ((addr + b2.length) % W64) (size - b2.length)).map (fun r => do
                    let (c, rest) ← r
                    return (c, b1 ++ b2 ++ rest))
                else some (.ok (c, b1 ++ b2))
            | .exc => some .exc
            | .ub => some .ub
            | .abort => some .abort
      | .exc => some .exc
      | .ub => some .ub
      | .abort => some .abort

end Pstack.Core
