import Verif.Props.CanalReport
/-
Examples for C97 and C98.
-/
namespace Pstack.Props
open Pstack.Canal Pstack.Reader Pstack.Spec Pstack.Args

/-! ### A memory of two words -/

def scanData : List Byte := [0x04, 0x01, 0x40, 0, 0, 0, 0, 0, 0x99, 0, 0, 0, 0, 0, 0, 0]
def scanRead (a n : Nat) : Res (List Byte) := if a < 0x1000 then .exc else .ok ((scanData.drop (a - 0x1000)).take n)
def scanAreas : List Area := [⟨0x800, 0x900, false⟩, ⟨0xa00, 0xb00, true⟩, ⟨0x1000, 0x1010, false⟩]
def scanSym : Sym := ⟨0x100, 0x10, 0x400000, [0x61], 0, [0x78]⟩
def scanSort (l : List Sym) : List Sym := l.mergeSort (fun a b => decide (b.count ≤ a.count))

theorem scan_mem : CanalMemory scanRead scanAreas [(0x1000, scanData)] := by
  refine .hole ⟨by decide, fun len => .inl rfl⟩ (.io rfl (.bytes (a := ⟨0x1000, 0x1010, false⟩) rfl ⟨by decide, rfl, ?_⟩ .nil))
  intro off len _
  unfold scanRead
  rw [if_neg (by show ¬ 0x1000 + off < 0x1000; omega)]
  show Res.ok ((scanData.drop (0x1000 + off - 0x1000)).take len) = _
  rw [Nat.add_sub_cancel_left]

theorem scan_whole : WholeWords 8 [(0x1000, scanData)] := by
  intro m hm
  rw [List.mem_singleton.1 hm]
  rfl

theorem scan_sorts : SortsDown scanSort := by
  intro l
  refine ⟨List.mergeSort_perm _ _, ?_⟩
  have := List.pairwise_mergeSort (le := fun (a b : Sym) => decide (b.count ≤ a.count)) (by intro a b c h1 h2; simp at *; omega) (by intro a b; simp; omega) l
  exact this.imp (by intro a b h; simpa using h)

theorem C97_example : canal scanRead scanAreas 8 [.startLoc 0x400000, .endLoc 0x401000, .startLoc 0x99] (-1) false scanSort [] = .ok (addressLines [0x1000, 0x1008]) :=
  C97_references_partial (.inr rfl) scan_mem scan_whole (asked := [⟨0x400000, some 0x401000⟩, ⟨0x99, none⟩]) (by decide) (by decide) (-1) false scan_sorts (by intro e h; cases h)

theorem scan_sel : ∀ s, ChosenSym [[0x61]] [scanSym] s ↔ s = scanSym := by
  intro s
  unfold ChosenSym
  constructor
  · intro h; exact List.mem_singleton.1 h.1
  · rintro rfl
    refine ⟨by simp, [0x61], by simp, ?_⟩
    simp [Fills, scanSym]

/-- The word at 0x1000 refers to the symbol "a" of object "x", which is at 0x400100. -/
theorem C98_example : ∃ shown text, canal scanRead scanAreas 8 [] (-1) true scanSort (collect [[0x61]] [scanSym]) = .ok (shown ++ text) ∧
    RefLines (ChosenSym [[0x61]] [scanSym]) none [(0x1000, 0x400104), (0x1008, 0x99)] shown ∧ RefReport (ChosenSym [[0x61]] [scanSym]) none [(0x1000, 0x400104), (0x1008, 0x99)] text := by
  obtain ⟨shown, text, h1, h2, _, h4⟩ := C98_report_partial (.inr rfl) scan_mem scan_whole (patterns := [[0x61]]) (syms := [scanSym]) (by decide) (by decide)
    ⟨fun s h => by rw [scan_sel] at h; subst h; unfold Fits; decide, fun s t h h' => by rw [scan_sel] at h h'; subst h; subst h'; exact .inl rfl, fun s h => by rw [scan_sel] at h; subst h; rfl⟩
    (z := -1) (off := none) rfl (fun o h => by cases h) scan_sorts true
  exact ⟨shown, text, h1, h2 rfl, h4⟩

theorem scan_words : memWords 8 [(0x1000, scanData)] = [(0x1000, 0x400104), (0x1008, 0x99)] ∧ refCount none (memWords 8 [(0x1000, scanData)]) scanSym = 1 := by decide

/-- Two symbols of eight bytes, one after the other, and a memory with the address of the second. -/
theorem C98_touching_example : canal (fun a n => .ok ((([0x08, 0, 0, 0, 0, 0, 0, 0] : List Byte).drop (a - 0x1000)).take n)) [⟨0x1000, 0x1008, false⟩] 8 [] (-1) true scanSort
    ([⟨0, 8, 0, [0x61], 0, []⟩, ⟨8, 8, 0, [0x62], 0, []⟩].foldl add []) = .ok [] := by
  refine C98_not_touching (mem := [(0x1000, [0x08, 0, 0, 0, 0, 0, 0, 0])]) (.inr rfl) (.bytes (a := ⟨0x1000, 0x1008, false⟩) rfl ⟨by decide, rfl, ?_⟩ .nil) ?_ (by unfold Fits; decide) (by unfold Fits; decide) rfl (by decide) ⟨rfl, rfl⟩ (by decide) scan_sorts true
  · intro off len _
    show Res.ok ((([0x08, 0, 0, 0, 0, 0, 0, 0] : List Byte).drop (0x1000 + off - 0x1000)).take len) = _
    rw [Nat.add_sub_cancel_left]
  · intro m hm
    rw [List.mem_singleton.1 hm]
    rfl

end Pstack.Props
