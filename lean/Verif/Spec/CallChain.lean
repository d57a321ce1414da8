import Verif.Spec.Unwind
import Verif.Spec.CfaMeaning
import Verif.Model.Unwind
/-
Call chains: sets of registers, innermost first, each related to the next by the unwind rules registered for its address.
-/
namespace Pstack.Spec
open Pstack.Arch Pstack.Dwarf Pstack.Unwind

/-- Two register files that no register number tells apart. -/
def SameRegs (a b : Regs) : Prop := ∀ r : Int, a.getDwarf r = b.getDwarf r

/-- The unwind information registered for address `ip` is entry `fde` of frame section `d` in an object loaded at `reloc`,
and its row for that address is `row`. -/
structure RulesAt (p : Proc) (ip reloc : BitVec 64) (d : List Byte) (fde : FDE) (row : Row) : Prop where
  found : ∃ loc find, p.locate ip = .ok (some loc) ∧ loc.reloc = reloc ∧ loc.cfi = some (d, find) ∧
    find (ip - reloc).toNat = .ok (some fde)
  size : d.length < W64
  rules : ∃ cf, fde.execInsns d (ip - reloc) = .ok cf ∧ Holds d cf row
  general : row.General
  rar : fde.cie.rar = 16

/-- Is the entry that covers `addr` marked as that of a signal handler's return path? -/
def SignalAt (p : Proc) (addr : BitVec 64) (b : Bool) : Prop :=
  (p.locate addr = .ok none ∧ b = false) ∨
  (∃ loc, p.locate addr = .ok (some loc) ∧ loc.cfi = none ∧ b = false) ∨
  (∃ loc d find fde, p.locate addr = .ok (some loc) ∧ loc.cfi = some (d, find) ∧
    find (addr - loc.reloc).toNat = .ok fde ∧ b = (fde.map fun x => x.cie.isSignalHandler).getD false)

/-- The address to look up for a frame whose program counter is `pc`: the program counter itself where the frame was
interrupted (`exact`) or returns from a signal, otherwise the call instruction before it. -/
def Site (p : Proc) (exact : Bool) (pc ip : BitVec 64) : Prop :=
  if exact = true ∨ pc = 0 then ip = pc
  else (SignalAt p pc true ∧ ip = pc) ∨ (SignalAt p pc false ∧ ip = pc - 1)

/-- `Chain p exact regs callers`: by the registered rules, a frame with registers `regs` was called (or its handler's
signal was delivered to) the frames `callers`, innermost first; the last one has no caller. -/
inductive Chain (p : Proc) : Bool → Regs → List Regs → Prop
  | outermost (exact : Bool) (regs : Regs) (pc ip reloc cfa : BitVec 64) (d : List Byte) (fde : FDE) (row : Row) :
      regs.getDwarf 16 = .ok (.u64 pc) → Site p exact pc ip → RulesAt p ip reloc d fde row →
      row.cfa.Value (machineOf regs p.mem 0 reloc) cfa → row.rule 16 = .undefined →
      (∀ r : Nat, r < 16 → ∃ v, row.Gives (machineOf regs p.mem cfa reloc) r v) →
      Chain p exact regs []
  | caller (exact : Bool) (regs : Regs) (pc ip reloc cfa : BitVec 64) (d : List Byte) (fde : FDE) (row : Row)
      (up : Regs) (ups : List Regs) :
      regs.getDwarf 16 = .ok (.u64 pc) → Site p exact pc ip → RulesAt p ip reloc d fde row →
      row.cfa.Value (machineOf regs p.mem 0 reloc) cfa → cfa ≠ 0 → row.rule 16 ≠ .undefined →
      Restores row (machineOf regs p.mem cfa reloc) 16 regs up →
      Chain p fde.cie.isSignalHandler up ups →
      Chain p exact regs (up :: ups)

/-- The frames have, one by one, the registers of the list. -/
inductive SameAll : List Frame → List Regs → Prop
  | nil : SameAll [] []
  | cons {f : Frame} {r : Regs} {fs : List Frame} {l : List Regs} : SameRegs f.regs r → SameAll fs l → SameAll (f :: fs) (r :: l)

end Pstack.Spec
