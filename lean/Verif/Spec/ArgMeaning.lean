import Verif.Spec.Args
import Verif.Spec.ExprMeaning
import Verif.Model.Args
/-
How the state of a frame is that of the specification.
-/
namespace Pstack.Spec
open Pstack.Die

/-- What the program is given is this state: the object is loaded at `c.reloc`, and the frame is at `c.ip`. -/
structure FrameIs (c : Args.Ctx) (f : FrameState) : Prop where
  mem : c.mem = f.mem
  machine : Provides c.env f.m c.reloc
  ip : c.ip.toNat = c.reloc.toNat + f.pc
  loc : c.loc = f.loc ∧ f.loc.length < 2 ^ 64
  loclists : c.loclists = f.loclists ∧ f.loclists.length < 2 ^ 64

/-- Of every unit the base address is known. -/
def BasesKnown (d : Sections) (xs : List DieUnit) : Prop := ∀ uo x, (uo, x) ∈ placeUnits 0 xs → ∃ base, BaseAddress d x base

end Pstack.Spec
