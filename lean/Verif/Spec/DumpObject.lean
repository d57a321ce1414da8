import Verif.Spec.DumpCfa
import Verif.Model.Elf
/-
What is to be shown of an ELF object.
-/
namespace Pstack.Spec
open Pstack.Elf

/-- The names ELF and GNU have for types of segments. -/
def elfSegType : Nat → Option String
  | 0 => some "PT_NULL"
  | 1 => some "PT_LOAD"
  | 2 => some "PT_DYNAMIC"
  | 3 => some "PT_INTERP"
  | 4 => some "PT_NOTE"
  | 5 => some "PT_SHLIB"
  | 6 => some "PT_PHDR"
  | 7 => some "PT_TLS"
  | 0x6474e550 => some "PT_GNU_EH_FRAME"
  | 0x6474e551 => some "PT_GNU_STACK"
  | 0x6474e552 => some "PT_GNU_RELRO"
  | 0x6474e553 => some "PT_GNU_PROPERTY"
  | _ => none

/-- The names ELF has for types of objects. -/
def elfObjType : Nat → Option String
  | 0 => some "ET_NONE"
  | 1 => some "ET_REL"
  | 2 => some "ET_EXEC"
  | 3 => some "ET_DYN"
  | 4 => some "ET_CORE"
  | _ => none

/-- The systems that EI_OSABI is for. -/
def elfBrand : Nat → Option String
  | 0 => some "SYSV/NONE"
  | 1 => some "HP-UX"
  | 2 => some "NetBSD"
  | 3 => some "Linux"
  | 4 => some "Hurd"
  | 5 => some "86Open"
  | 6 => some "Solaris"
  | 7 => some "Monterey"
  | 8 => some "Irix"
  | 9 => some "FreeBSD"
  | 10 => some "Tru64"
  | 11 => some "Modesto"
  | 12 => some "OpenBSD"
  | _ => none

/-- The flags of a segment: read, write, execute. -/
def segFlags (flags : Nat) : List String :=
  [(4, "PF_R"), (2, "PF_W"), (1, "PF_X")].filterMap (fun x => if flags / x.1 % 2 = 1 then some x.2 else none)

/-- The object for a segment, with names for its type and flags in some order, and more members for a dynamic segment. -/
def segObject (name : String) (flags : List String) (dyn : List (List Nat × JVal)) (p : Phdr) : JVal :=
  .obj ([(charCodes "offset", .int p.offset), (charCodes "vaddr", .int p.vaddr), (charCodes "paddr", .int p.paddr),
    (charCodes "filesz", .int p.filesz), (charCodes "memsz", .int p.memsz), (charCodes "type", .str (charCodes name)),
    (charCodes "flags", .arr (flags.map (fun s => .str (charCodes s)))), (charCodes "alignment", .int p.align)] ++ dyn)

end Pstack.Spec
