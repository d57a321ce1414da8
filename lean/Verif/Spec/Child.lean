import Verif.Spec.Maps
import Verif.Model.Child
/-
What is to happen to a command that is run under pstack.
-/
namespace Pstack.Spec.Cmd
open Pstack.Child

/-- Words with single blanks between them. -/
def joined : List Text → Text
  | [] => []
  | [w] => w
  | w :: ws => w ++ ' ' :: joined ws

/-- Words have no blanks in them. -/
def Words (ws : List Text) : Prop := ws ≠ [] ∧ ∀ w ∈ ws, ' ' ∉ w

/-- A line with a mask: 16 digits. -/
def maskText (name : String) (v : BitVec 64) : Text := name.toList ++ ':' :: '\t' :: Spec.hexText 16 v.toNat

/-- A status file as the kernel writes it: lines, among which are one for each of the signals blocked, caught and ignored. -/
def StatusFile (blk cgt ign : BitVec 64) (text : Text) : Prop :=
  ∃ ls : List Text, text = ls.flatMap (· ++ ['\n']) ∧ maskText "SigBlk" blk ∈ ls ∧ maskText "SigCgt" cgt ∈ ls ∧ maskText "SigIgn" ign ∈ ls ∧
    ∀ l ∈ ls, '\n' ∉ l ∧ (l = maskText "SigBlk" blk ∨ l = maskText "SigCgt" cgt ∨ l = maskText "SigIgn" ign ∨
      ¬("SigBlk:\t".toList <:+: l) ∧ ¬("SigCgt:\t".toList <:+: l) ∧ ¬("SigIgn:\t".toList <:+: l))

/-- The signal (counted from 1) is in the mask. -/
def InMask (sig : Nat) (m : BitVec 64) : Prop := m.getLsbD (sig - 1) = true

/-- The child will go on when it gets the signal: it is blocked, caught or ignored, or it is the trap for the debugger. -/
def GoesOn (sig : Nat) (blk cgt ign : BitVec 64) : Prop := InMask sig blk ∨ InMask sig cgt ∨ InMask sig ign ∨ sig = 5

/-- The child has stopped for a signal, and will go on with it. -/
def Passes (w : Wait) (sig : Nat) : Prop := ∃ blk cgt ign text, w = .stopped sig text true ∧ StatusFile blk cgt ign text ∧ 1 ≤ sig ∧ sig ≤ 31 ∧ GoesOn sig blk cgt ign

/-- The child has stopped for a signal that it does nothing about. -/
def Dies (w : Wait) (sig : Nat) : Prop := ∃ blk cgt ign text, w = .stopped sig text true ∧ StatusFile blk cgt ign text ∧ 1 ≤ sig ∧ sig ≤ 31 ∧ ¬GoesOn sig blk cgt ign

/-- The signal that is delivered: none for a stop or a trap. -/
def delivered (sig : Nat) : Nat := if sig = 19 ∨ sig = 5 then 0 else sig

end Pstack.Spec.Cmd
