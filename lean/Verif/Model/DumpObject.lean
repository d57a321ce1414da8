import Verif.Model.StackJson
/-
Model of dump.cc:588-604, 616-657, 840-882: the JSON text of an ELF object: the fields of its header and its segments.
The strings are of a type `σ`, as in Verif.Model.StackJson.
-/
namespace Pstack.DumpObject
open Pstack.Reader Pstack.Elf Pstack.DumpCfa

/-- `programHeaderName`. dump.cc:588-604. -/
def segmentName (t : Nat) : String :=
  if t = 0 then "PT_NULL" else if t = 1 then "PT_LOAD" else if t = 2 then "PT_DYNAMIC" else if t = 3 then "PT_INTERP"
  else if t = 4 then "PT_NOTE" else if t = 5 then "PT_SHLIB" else if t = 6 then "PT_PHDR" else if t = 7 then "PT_TLS"
  else if t = 0x6474e550 then "PT_GNU_EH_FRAME" else if t = 0x6474e551 then "PT_GNU_STACK" else if t = 0x6474e552 then "PT_GNU_RELRO"
  else "invalid program header type"

/-- The strings that are inserted in `flags`. PF_X, PF_W and PF_R are 1, 2 and 4. dump.cc:847-855. -/
def flagStrings (flags : Nat) : List String :=
  (if flags.testBit 2 then ["PF_R"] else []) ++ (if flags.testBit 1 then ["PF_W"] else []) ++ (if flags.testBit 0 then ["PF_X"] else [])

/-- A segment. The set of flags is one of pointers and is in the order of these: `order` is some way to put strings in order. What is
written for the entries of a dynamic segment is given. dump.cc:840-882. -/
def segTree {σ : Type} (k : String → σ) (order : List String → List String) (dyn : Phdr → Json.Tree σ) (p : Phdr) : Json.Tree σ :=
  .obj true ([(k "offset", .int p.offset), (k "vaddr", .int p.vaddr), (k "paddr", .int p.paddr), (k "filesz", .int p.filesz),
    (k "memsz", .int p.memsz), (k "type", .str (k (segmentName p.type))),
    (k "flags", .list ((order (flagStrings p.flags)).map (fun s => .str (k s)))), (k "alignment", .int p.align)] ++
    (if p.type = 2 then [(k "dynamic", dyn p)] else []))

/-- `mappedSegments`: a container with strings for keys. The map from types to headers is given, in its order. dump.cc:645, 651. -/
def segmentsTree {σ : Type} (k : String → σ) (order : List String → List String) (dyn : Phdr → Json.Tree σ)
    (gs : List (Nat × List Phdr)) : Json.Tree σ :=
  .obj false (gs.map (fun g => (k (segmentName g.1), .list (g.2.map (segTree k order dyn)))))

/-- What else is written of an object: given. There is no interpreter if its name is empty. -/
structure Others (σ : Type) where
  sections : Json.Tree σ
  dyn : Phdr → Json.Tree σ
  notes : Json.Tree σ
  versions : Json.Tree σ
  interpreter : Option σ

def typeNames : List String := ["ET_NONE", "ET_REL", "ET_EXEC", "ET_DYN", "ET_CORE"]

def abiNames : List String :=
  ["SYSV/NONE", "HP-UX", "NetBSD", "Linux", "Hurd", "86Open", "Solaris", "Monterey", "Irix", "FreeBSD", "Tru64", "Modesto", "OpenBSD"]

/-- `typeNames[ehdr.e_type]` beyond the end is undefined, as is a string from a null pointer, which is what `abi` is for a brand beyond
the names. dump.cc:619-657. -/
def objectTree {σ : Type} (k : String → σ) (order : List String → List String) (o : Others σ) (type entry brand : Nat)
    (gs : List (Nat × List Phdr)) : Res (Json.Tree σ) :=
  match typeNames[type]?, abiNames[brand]? with
  | some t, some a =>
      .ok (.obj true ([(k "type", .str (k t)), (k "entry", .int entry), (k "abi", .str (k a)), (k "sections", o.sections),
        (k "segments", segmentsTree k order o.dyn gs), (k "notes", o.notes), (k "versioninfo", o.versions)] ++
        (match o.interpreter with | none => [] | some i => [(k "interpreter", .str i)])))
  | _, _ => .ub

/-- `os << json(object)`. Exceptions and undefined behaviour from the parts that are given are not modelled. -/
def dumpObject (order : List String → List String) (o : Others (List Byte)) (type entry brand : Nat) (gs : List (Nat × List Phdr)) :
    Res (List Char) := do
  let t ← objectTree lit order o type entry brand gs
  Json.print t

end Pstack.DumpObject
