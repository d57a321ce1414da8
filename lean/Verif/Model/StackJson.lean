import Verif.Model.Elf
import Verif.Model.DumpCfa
/-
Model of the JSON text of stacks: pstack.cc:34-38, process.cc:35-75, 97-105, 408-455, 1448-1462.
The strings are of a type `σ`, and the program's own words are turned into it by `k`: the program is the case of bytes, `lit`.
-/
namespace Pstack.StackJson
open Pstack.Reader Pstack.Elf Pstack.DumpCfa

/-- What is known of a function: the name that `buildDIEName` gives, `DW_AT_low_pc`, and the start of the first of its ranges (if it
has ranges there is at least one). process.cc:419-434. -/
structure JDie (σ : Type) where
  name : σ
  low : Option (BitVec 64)
  range : Option (BitVec 64)

/-- `ProcessLocation` with a `CodeLocation`: the address in the process and in the object, the function, the symbol and the lines.
libpstack/proc.h:101-129. -/
structure JPlace (σ : Type) where
  addr : BitVec 64
  objIp : BitVec 64
  die : Option (JDie σ)
  sym : Option (Sym × σ)
  source : List (σ × Int)

/-- `StackFrame`, with the place its address is in, if it is in an object. -/
structure JFrame (σ : Type) where
  rawIP : BitVec 64
  trampoline : Bool
  place : Option (JPlace σ)

/-- `Lwp`. Of `threadInfo`, the fields that are written. libpstack/proc.h:171-177. -/
structure JLwp (σ : Type) where
  thread : Option (BitVec 64 × Nat × Int)
  id : Int
  name : Option σ
  stack : List (JFrame σ)

/-- The function, unless option `nodienames` is set. process.cc:418-420. -/
def dieOf {σ : Type} (nodienames : Bool) (p : JPlace σ) : Option (JDie σ) := if nodienames then none else p.die

/-- The first attempt at `functionOffset`. process.cc:410, 418-444. -/
def dieOffset {σ : Type} (nodienames : Bool) (p : JPlace σ) : BitVec 64 :=
  match dieOf nodienames p with
  | none => BitVec.allOnes 64
  | some d =>
      match d.low with
      | some l => p.objIp - l
      | none =>
          match d.range with
          | some r => p.objIp - r
          | none => BitVec.allOnes 64

/-- `PrintableFrame::functionOffset`. process.cc:408-455. -/
def functionOffset {σ : Type} (nodienames : Bool) (f : JFrame σ) : BitVec 64 :=
  match f.place with
  | none => BitVec.allOnes 64
  | some p =>
      if dieOffset nodienames p = BitVec.allOnes 64 then
        match p.sym with
        | some s => p.objIp - BitVec.ofNat 64 s.1.value
        | none => BitVec.allOnes 64
      else dieOffset nodienames p

/-- `PrintableFrame::dieName`. process.cc:415-423. -/
def dieName {σ : Type} (k : String → σ) (nodienames : Bool) (f : JFrame σ) : σ :=
  match f.place with
  | none => k ""
  | some p =>
      match dieOf nodienames p with
      | none => k ""
      | some d => d.name

/-- A file and a line. process.cc:35-41. -/
def srcTree {σ : Type} (k : String → σ) (s : σ × Int) : Json.Tree σ := .obj true [(k "file", .str s.1), (k "line", .int s.2)]

/-- A symbol. process.cc:43-54. -/
def namedSymTree {σ : Type} (k : String → σ) (s : Sym × σ) : Json.Tree σ :=
  .obj true [(k "st_name", .str s.2), (k "st_value", .int s.1.value), (k "st_size", .int s.1.size), (k "st_info", .int s.1.info),
    (k "st_other", .int s.1.other), (k "st_shndx", .int s.1.shndx)]

/-- `std::optional`. json.h:311-318. -/
def optTree {σ α : Type} (t : α → Json.Tree σ) : Option α → Json.Tree σ
  | none => .null
  | some a => t a

/-- A frame. process.cc:1448-1462; `elfReloc` is at libpstack/proc.h:120. -/
def frameTree {σ : Type} (k : String → σ) (nodienames : Bool) (f : JFrame σ) : Json.Tree σ :=
  .obj true [(k "ip", .int f.rawIP.toNat), (k "offset", .int (functionOffset nodienames f).toNat), (k "trampoline", .bool f.trampoline),
    (k "die", .str (dieName k nodienames f)),
    (k "loadaddr", .int (match f.place with | none => 0 | some p => (p.addr - p.objIp).toNat)),
    (k "symbol", optTree (namedSymTree k) (f.place.bind JPlace.sym)),
    (k "source", .list ((match f.place with | none => [] | some p => p.source).map (srcTree k)))]

/-- `td_thr_type_e`: ANY_TYPE, USER, SYSTEM are 0, 1, 2. process.cc:97-105. -/
def threadType : Nat → String
  | 0 => "TD_THR_ANY_TYPE"
  | 1 => "TD_THR_USER"
  | 2 => "TD_THR_SYSTEM"
  | _ => "unknown type"

/-- A thread. process.cc:56-75. -/
def lwpTree {σ : Type} (k : String → σ) (nodienames : Bool) (l : JLwp σ) : Json.Tree σ :=
  .obj true ((match l.thread with
      | none => []
      | some (tid, ty, pri) => [(k "ti_tid", .int tid.toNat), (k "ti_type", .str (k (threadType ty))), (k "ti_pri", .int pri)]) ++
    [(k "ti_lid", .int l.id), (k "name", optTree .str l.name), (k "ti_stack", .list (l.stack.map (frameTree k nodienames)))])

/-- `pstack --json`. The threads are in the order of the map, which is that of their ids. What is found of each frame is given;
exceptions from finding it are not modelled. pstack.cc:34-38. -/
def stacksJson (nodienames : Bool) (ls : List (JLwp (List Byte))) : Res (List Char) :=
  Json.print (.list (ls.map (lwpTree lit nodienames)))

end Pstack.StackJson
