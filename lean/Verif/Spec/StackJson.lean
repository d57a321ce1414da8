import Verif.Spec.DumpCfa
import Verif.Model.StackJson
/-
What is to be shown of stacks. The records of frames and threads are those of the model, with strings as code points.
-/
namespace Pstack.Spec
open Pstack.StackJson Pstack.Elf

/-- The same facts with strings as the program holds them, in UTF-8. -/
def placeHeld (p : JPlace (List Nat)) : JPlace (List Byte) :=
  ⟨p.addr, p.objIp, p.die.map (fun d => ⟨utf8s d.name, d.low, d.range⟩), p.sym.map (fun s => (s.1, utf8s s.2)),
    p.source.map (fun s => (utf8s s.1, s.2))⟩

def frameHeld (f : JFrame (List Nat)) : JFrame (List Byte) := ⟨f.rawIP, f.trampoline, f.place.map placeHeld⟩

def lwpHeld (l : JLwp (List Nat)) : JLwp (List Byte) := ⟨l.thread, l.id, l.name.map utf8s, l.stack.map frameHeld⟩

/-- Where the function is said to start: by debug information, if that is wanted, and else by the symbol. -/
def frameStart (nodienames : Bool) (p : JPlace (List Nat)) : Option Nat :=
  let byDie := if nodienames then none else p.die.bind (fun d => (d.low <|> d.range).map BitVec.toNat)
  byDie <|> p.sym.map (fun s => s.1.value)

/-- The number shown when the start is not known. -/
def unknownOffset : Nat := 2 ^ 64 - 1

/-- How far into its function the frame is. -/
def frameOffset (nodienames : Bool) (f : JFrame (List Nat)) : Int :=
  match f.place.bind (frameStart nodienames) with
  | some s => ((f.place.map (fun p => p.objIp.toNat)).getD 0 : Nat) - (s : Int)
  | none => unknownOffset

/-- The name of the function, or nothing. -/
def functionName (nodienames : Bool) (f : JFrame (List Nat)) : List Nat :=
  if nodienames then [] else ((f.place.bind JPlace.die).map JDie.name).getD []

def orNull {α : Type} (f : α → JVal) (o : Option α) : JVal := (o.map f).getD .null

/-- The object for a frame. -/
def frameObject (nodienames : Bool) (f : JFrame (List Nat)) (offset : Int) : JVal :=
  .obj [(charCodes "ip", .int f.rawIP.toNat), (charCodes "offset", .int offset), (charCodes "trampoline", .bool f.trampoline),
    (charCodes "die", .str (utf16s (functionName nodienames f))),
    (charCodes "loadaddr", .int ((f.place.map (fun p => (p.addr - p.objIp).toNat)).getD 0 : Nat)),
    (charCodes "symbol", orNull (fun s => .obj [(charCodes "st_name", .str (utf16s s.2)), (charCodes "st_value", .int s.1.value),
      (charCodes "st_size", .int s.1.size), (charCodes "st_info", .int s.1.info), (charCodes "st_other", .int s.1.other),
      (charCodes "st_shndx", .int s.1.shndx)]) (f.place.bind JPlace.sym)),
    (charCodes "source", .arr (((f.place.map JPlace.source).getD []).map
      (fun s => .obj [(charCodes "file", .str (utf16s s.1)), (charCodes "line", .int s.2)])))]

/-- The name of a type of thread. -/
def threadTypeName (n : Nat) : String := (["TD_THR_ANY_TYPE", "TD_THR_USER", "TD_THR_SYSTEM"][n]?).getD "unknown type"

/-- The object for a thread, with the offsets of its frames given: what the thread library says, if it is there, the id, the name, and the frames, innermost first. -/
def threadObject (nodienames : Bool) (offset : JFrame (List Nat) → Int) (l : JLwp (List Nat)) : JVal :=
  .obj (((l.thread.map (fun t => [(charCodes "ti_tid", JVal.int t.1.toNat), (charCodes "ti_type", .str (charCodes (threadTypeName t.2.1))),
      (charCodes "ti_pri", .int t.2.2)])).getD []) ++
    [(charCodes "ti_lid", .int l.id), (charCodes "name", orNull (fun n => .str (utf16s n)) l.name),
     (charCodes "ti_stack", .arr (l.stack.map (fun f => frameObject nodienames f (offset f))))])

/-- The address is not before the start of its function, and values are 64 bits. -/
def AfterStart (nodienames : Bool) (f : JFrame (List Nat)) : Prop :=
  ∀ p, f.place = some p → p.objIp.toNat < 2 ^ 64 - 1 ∧ ∀ s, frameStart nodienames p = some s → s ≤ p.objIp.toNat

end Pstack.Spec
