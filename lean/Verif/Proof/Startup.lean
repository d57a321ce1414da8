import Verif.Spec.Startup
import Verif.Proof.DwarfReader
namespace Pstack.Startup
open Pstack.Spec

/-! ### Numbers in memory -/

theorem leBytes_len (n v : Nat) : (leBytes n v).length = n := by
  induction n generalizing v with
  | zero => rfl
  | succ n ih => simp [leBytes, ih]

theorem bytesAt_of {mem : Nat → Option Byte} {l : List Byte} : ∀ {a : Nat}, BytesIn mem a l → bytesAt mem a l.length = some l := by
  induction l with
  | nil => intro a _; rfl
  | cons b l ih =>
    intro a h
    have h0 : mem (a % W64) = some b := by simpa using h 0 (by simp)
    have h1 : BytesIn mem (a + 1) l := by
      intro i hi
      have := h (i + 1) (by simpa using hi)
      rw [show a + (i + 1) = a + 1 + i by omega] at this
      simpa using this
    simp only [List.length_cons, bytesAt]
    rw [h0, ih h1]
    rfl

theorem readObj_of {mem : Nat → Option Byte} {l : List Byte} {a n : Nat} (h : BytesIn mem a l) (hn : l.length = n) : readObj mem a n = .ok l := by
  subst hn
  unfold readObj
  rw [bytesAt_of h]

theorem bytesIn_left {mem : Nat → Option Byte} {a : Nat} {l r : List Byte} (h : BytesIn mem a (l ++ r)) : BytesIn mem a l := by
  intro i hi
  rw [h i (by simp; omega), List.getElem?_append_left hi]

theorem bytesIn_right {mem : Nat → Option Byte} {a : Nat} {l r : List Byte} (h : BytesIn mem a (l ++ r)) : BytesIn mem (a + l.length) r := by
  intro i hi
  have := h (l.length + i) (by simp; omega)
  rw [List.getElem?_append_right (by omega)] at this
  rw [Nat.add_assoc, this]
  congr 1; omega

theorem bytesIn_mod {mem : Nat → Option Byte} {a b : Nat} {l : List Byte} (h : BytesIn mem a l) (e : a % W64 = b % W64) : BytesIn mem b l := by
  intro i hi
  rw [← h i hi]
  congr 1
  rw [Nat.add_mod, ← e, ← Nat.add_mod]

theorem readInto_of {mem : Nat → Option Byte} {l : List Byte} : ∀ {a : Nat}, BytesIn mem a l → readInto mem a l.length = l := by
  induction l with
  | nil => intro a _; rfl
  | cons b l ih =>
    intro a h
    have h0 : mem (a % W64) = some b := by simpa using h 0 (by simp)
    have h1 : BytesIn mem (a + 1) l := by
      intro i hi
      have := h (i + 1) (by simpa using hi)
      rw [show a + (i + 1) = a + 1 + i by omega] at this
      simpa using this
    simp only [List.length_cons, readInto, h0, ih h1]

/-- A number in the middle of a structure. -/
theorem field_mid {a b : List Byte} {n v off : Nat} (ho : a.length = off) (hv : v < 256 ^ n) : field (a ++ (leBytes n v ++ b)) off n = v := by
  unfold field
  rw [List.drop_left' ho, List.take_left' (leBytes_len n v), Dwarf.leNat_leBytes, Nat.mod_eq_of_lt hv]

theorem field_pair {e : Nat × Nat} (h : Pair64 e) (r : List Byte) : field (encPair e ++ r) 0 8 = e.1 ∧ field (encPair e ++ r) 8 8 = e.2 := by
  have h1 : e.1 < 256 ^ 8 := by have := h.1; omega
  have h2 : e.2 < 256 ^ 8 := by have := h.2; omega
  unfold encPair
  constructor
  · have := field_mid (a := []) (b := leBytes 8 e.2 ++ r) (off := 0) rfl h1
    simpa using this
  · have := field_mid (a := leBytes 8 e.1) (b := r) (off := 8) (leBytes_len _ _) h2
    simpa using this

theorem encPair_len (e : Nat × Nat) : (encPair e).length = 16 := by simp [encPair, leBytes_len]

theorem enc_len (h : Header) : h.enc.length = 56 := by simp [Header.enc, leBytes_len]

theorem field_header {h : Header} (hf : h.Fits) : field h.enc 0 4 = h.type ∧ field h.enc 16 8 = h.vaddr ∧ field h.enc 32 8 = h.filesz := by
  have h1 : h.type < 256 ^ 4 := by have := hf.1; omega
  have h2 : h.vaddr < 256 ^ 8 := by have := hf.2.1; omega
  have h3 : h.filesz < 256 ^ 8 := by have := hf.2.2; omega
  unfold Header.enc
  refine ⟨?_, ?_, ?_⟩
  · simpa using field_mid (a := []) (b := leBytes 4 h.flags ++ (leBytes 8 h.offset ++ (leBytes 8 h.vaddr ++ (leBytes 8 h.paddr ++ (leBytes 8 h.filesz ++ (leBytes 8 h.memsz ++ leBytes 8 h.align))))))
      (off := 0) rfl h1
  · simpa using field_mid (a := leBytes 4 h.type ++ (leBytes 4 h.flags ++ leBytes 8 h.offset)) (b := leBytes 8 h.paddr ++ (leBytes 8 h.filesz ++ (leBytes 8 h.memsz ++ leBytes 8 h.align)))
      (off := 16) (by simp [leBytes_len]) h2
  · simpa using field_mid (a := leBytes 4 h.type ++ (leBytes 4 h.flags ++ (leBytes 8 h.offset ++ (leBytes 8 h.vaddr ++ leBytes 8 h.paddr)))) (b := leBytes 8 h.memsz ++ leBytes 8 h.align)
      (off := 32) (by simp [leBytes_len]) h3

theorem field_link {l : LinkMap} {next prev : Nat} (h1 : l.load < 2 ^ 64) (h2 : l.nameAddr < 2 ^ 64) (h3 : next < 2 ^ 64) :
    field (l.enc next prev) 0 8 = l.load ∧ field (l.enc next prev) 8 8 = l.nameAddr ∧ field (l.enc next prev) 24 8 = next := by
  have h1 : l.load < 256 ^ 8 := by omega
  have h2 : l.nameAddr < 256 ^ 8 := by omega
  have h3 : next < 256 ^ 8 := by omega
  unfold LinkMap.enc
  refine ⟨?_, ?_, ?_⟩
  · simpa using field_mid (a := []) (b := leBytes 8 l.nameAddr ++ (leBytes 8 l.ld ++ (leBytes 8 next ++ leBytes 8 prev))) (off := 0) rfl h1
  · simpa using field_mid (a := leBytes 8 l.load) (b := leBytes 8 l.ld ++ (leBytes 8 next ++ leBytes 8 prev)) (off := 8) (leBytes_len _ _) h2
  · simpa using field_mid (a := leBytes 8 l.load ++ (leBytes 8 l.nameAddr ++ leBytes 8 l.ld)) (b := leBytes 8 prev) (off := 24) (by simp [leBytes_len]) h3

/-! ### The auxiliary vector -/

def foldAux (w : World) (aux : List (Nat × Nat)) (a : Aux) : Aux := aux.foldl (fun a e => auxEntry w a e.1 e.2) a

theorem auxLoop_of (w : World) (sized : Bool) (aux : List (Nat × Nat)) (v : Nat) (rest : List Byte) (ht : ∀ e ∈ aux, Pair64 e ∧ e.1 ≠ 0) :
    ∀ n a, aux.length < n → auxLoop w sized n (aux.flatMap encPair ++ encPair (0, v) ++ rest) a = .ok (foldAux w aux a) := by
  induction aux with
  | nil =>
    intro n a hn
    cases n with
    | zero => omega
    | succ n =>
      have hl : (encPair (0, v) ++ rest).length = 16 + rest.length := by simp [encPair_len]
      have hf : field (encPair (0, v) ++ rest) 0 8 = 0 := by
        unfold encPair
        have := field_mid (a := []) (b := leBytes 8 v ++ rest) (n := 8) (v := 0) (off := 0) rfl (by decide)
        simpa using this
      simp only [List.flatMap_nil, List.nil_append, auxLoop]
      rw [if_neg (by intro h; have := congrArg List.length h.2; rw [hl] at this; simp at this), if_neg (by omega), if_pos hf]
      rfl
  | cons e aux ih =>
    intro n a hn
    cases n with
    | zero => omega
    | succ n =>
      obtain ⟨h1, h2⟩ := field_pair (ht e (by simp)).1 (aux.flatMap encPair ++ encPair (0, v) ++ rest)
      have hne := (ht e (by simp)).2
      have hl : (encPair e ++ (aux.flatMap encPair ++ encPair (0, v) ++ rest)).length = 16 + (aux.flatMap encPair ++ encPair (0, v) ++ rest).length := by
        rw [List.length_append, encPair_len]
      have e1 : (e :: aux).flatMap encPair ++ encPair (0, v) ++ rest = encPair e ++ (aux.flatMap encPair ++ encPair (0, v) ++ rest) := by simp
      rw [e1]
      simp only [auxLoop]
      rw [if_neg (by intro h; have := congrArg List.length h.2; rw [hl] at this; simp at this), if_neg (by omega), h1, h2, if_neg hne, List.drop_left' (encPair_len e)]
      rw [ih (fun e he => ht e (by simp [he])) n _ (by simpa using hn)]
      rfl

/-- What one type of entry does to one part of the result. -/
theorem foldAux_part {β : Type} (w : World) (π : Aux → β) (t : Nat) (g : Nat → β → β) (h1 : ∀ a ty v, ty ≠ t → π (auxEntry w a ty v) = π a) (h2 : ∀ a v, π (auxEntry w a t v) = g v (π a))
    (aux : List (Nat × Nat)) : ∀ a, π (foldAux w aux a) = (aux.filter (·.1 = t)).foldl (fun b e => g e.2 b) (π a) := by
  induction aux with
  | nil => intro a; rfl
  | cons e aux ih =>
    intro a
    show π (foldAux w aux (auxEntry w a e.1 e.2)) = _
    rw [ih]
    by_cases he : e.1 = t
    · rw [List.filter_cons_of_pos (by simpa using he), List.foldl_cons, he, h2]
    · rw [List.filter_cons_of_neg (by simpa using he), h1 _ _ _ he]

theorem part_is {β : Type} {aux : List (Nat × Nat)} {t v : Nat} {g : Nat → β → β} {b : β} (h : AuxIs aux t v) : (aux.filter (·.1 = t)).foldl (fun b e => g e.2 b) b = g v b := by
  rw [h]; rfl

section
variable (w : World)

theorem aux_phOff (aux : List (Nat × Nat)) (a : Aux) : (foldAux w aux a).phOff = (aux.filter (·.1 = 3)).foldl (fun _ e => e.2) a.phOff :=
  foldAux_part w (·.phOff) 3 (fun v _ => v) (by intro a ty v h; unfold auxEntry; (repeat' split); all_goals first | rfl | (exfalso; omega))
    (by intro a v; simp [auxEntry]) aux a

theorem aux_phNum (aux : List (Nat × Nat)) (a : Aux) : (foldAux w aux a).phNum = (aux.filter (·.1 = 5)).foldl (fun _ e => e.2) a.phNum :=
  foldAux_part w (·.phNum) 5 (fun v _ => v) (by intro a ty v h; unfold auxEntry; (repeat' split); all_goals first | rfl | (exfalso; omega))
    (by intro a v; simp [auxEntry]) aux a

theorem aux_exeName (aux : List (Nat × Nat)) (a : Aux) : (foldAux w aux a).exeName = (aux.filter (·.1 = 31)).foldl (fun b e => match w.str e.2 with | .ok s => s | _ => b) a.exeName :=
  foldAux_part w (·.exeName) 31 (fun v b => match w.str v with | .ok s => s | _ => b)
    (by intro a ty v h; unfold auxEntry; (repeat' split); all_goals first | rfl | (exfalso; omega))
    (by intro a v; unfold auxEntry; rw [if_neg (by decide), if_neg (by decide), if_neg (by decide), if_pos rfl]; cases w.str v <;> rfl) aux a

/-- What the vdso is to a process. -/
def Proc.vdsoPart (p : Proc) : Nat × OMap Obj × Option Image := (p.vdsoBase, p.objects, p.vdso)

def setVdso (v : Nat) (b : Nat × OMap Obj × Option Image) : Nat × OMap Obj × Option Image :=
  match w.elfAt v 65536 with
  | none => b
  | some i => (v, b.2.1.emplace v ⟨"(vdso image)".toList, i.bid, some i⟩, some i)

theorem aux_vdso (aux : List (Nat × Nat)) (a : Aux) : (foldAux w aux a).proc.vdsoPart = (aux.filter (·.1 = 33)).foldl (fun b e => setVdso w e.2 b) a.proc.vdsoPart :=
  foldAux_part w (·.proc.vdsoPart) 33 (setVdso w)
    (by intro a ty v h; unfold auxEntry; (repeat' split); all_goals first | rfl | (exfalso; omega))
    (by
      intro a v
      unfold auxEntry setVdso
      rw [if_neg (by decide), if_pos rfl]
      cases w.elfAt v 65536 with
      | none => rfl
      | some i => rfl) aux a

/-- The rest is not touched. -/
theorem aux_rest (aux : List (Nat × Nat)) : ∀ a, (foldAux w aux a).proc.exec = a.proc.exec ∧ (foldAux w aux a).proc.dtDebug = a.proc.dtDebug ∧ (foldAux w aux a).proc.execBase = a.proc.execBase := by
  induction aux with
  | nil => intro a; exact ⟨rfl, rfl, rfl⟩
  | cons e aux ih =>
    intro a
    have h : ∀ ty v, (auxEntry w a ty v).proc.exec = a.proc.exec ∧ (auxEntry w a ty v).proc.dtDebug = a.proc.dtDebug ∧ (auxEntry w a ty v).proc.execBase = a.proc.execBase := by
      intro ty v; unfold auxEntry
      split
      · exact ⟨rfl, rfl, rfl⟩
      · split
        · split <;> exact ⟨rfl, rfl, rfl⟩
        · split
          · exact ⟨rfl, rfl, rfl⟩
          · split
            · split <;> exact ⟨rfl, rfl, rfl⟩
            · split
              · exact ⟨rfl, rfl, rfl⟩
              · split <;> exact ⟨rfl, rfl, rfl⟩
    obtain ⟨h1, h2, h3⟩ := h e.1 e.2
    obtain ⟨i1, i2, i3⟩ := ih (auxEntry w a e.1 e.2)
    exact ⟨i1.trans h1, i2.trans h2, i3.trans h3⟩
end

end Pstack.Startup
