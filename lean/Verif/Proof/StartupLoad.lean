import Verif.Proof.Startup
namespace Pstack.Startup
open Pstack.Spec

/-- What some elements of a list do to one part of the result. -/
theorem fold_part {α β γ : Type} {step : γ → α → γ} {π : γ → β} {p : α → Bool} {g : α → β → β} {l : List α} (h1 : ∀ c x, x ∈ l → p x = false → π (step c x) = π c)
    (h2 : ∀ c x, x ∈ l → p x = true → π (step c x) = g x (π c)) : ∀ c, π (l.foldl step c) = (l.filter p).foldl (fun b x => g x b) (π c) := by
  induction l with
  | nil => intro c; rfl
  | cons x l ih =>
    intro c
    rw [List.foldl_cons, ih (fun c x hx => h1 c x (by simp [hx])) (fun c x hx => h2 c x (by simp [hx]))]
    cases hp : p x with
    | true => rw [List.filter_cons_of_pos hp, List.foldl_cons, h2 c x (by simp) hp]
    | false => rw [List.filter_cons_of_neg (by simp [hp]), h1 c x (by simp) hp]

/-! ### Program headers -/

theorem headerLoop_of {mem : Nat → Option Byte} {phOff : Nat} (hs : List Header) : ∀ i h, BytesIn mem (phOff + 56 * i) (hs.flatMap Header.enc) →
    headerLoop mem phOff hs.length i h = hs.foldl (fun h x => headerEntry phOff h x.enc) h := by
  induction hs with
  | nil => intro i h _; rfl
  | cons x hs ih =>
    intro i h hb
    rw [List.flatMap_cons] at hb
    simp only [List.length_cons, headerLoop]
    rw [readObj_of (bytesIn_left hb) (enc_len x)]
    simp only
    have := bytesIn_right hb
    rw [enc_len, show phOff + 56 * i + 56 = phOff + 56 * (i + 1) by omega] at this
    rw [ih (i + 1) _ this]
    rfl

section
variable {phOff : Nat} {hs : List Header} (hf : ∀ h ∈ hs, h.Fits)
include hf

theorem headers_base (h : Headers) : (hs.foldl (fun h x => headerEntry phOff h x.enc) h).execBase = (hs.filter (·.type = 6)).foldl (fun _ x => (phOff + W64 - x.vaddr) % W64) h.execBase := by
  refine fold_part (π := Headers.execBase) (p := fun (x : Header) => x.type = 6) (g := fun (x : Header) _ => (phOff + W64 - x.vaddr) % W64) (fun c x hx hp => ?_) (fun c x hx hp => ?_) h
  · obtain ⟨e1, e2, e3⟩ := field_header (hf x hx)
    unfold headerEntry
    simp only [e1, e2, e3]
    rw [if_neg (by simpa using hp)]
    split <;> (try rfl)
    split <;> rfl
  · obtain ⟨e1, e2, e3⟩ := field_header (hf x hx)
    unfold headerEntry
    simp only [e1, e2]
    rw [if_pos (by simpa using hp)]

theorem headers_notes (h : Headers) : (hs.foldl (fun h x => headerEntry phOff h x.enc) h).notes = h.notes ++ (hs.filter (·.type = 4)).map (·.vaddr) := by
  have e := fold_part (l := hs) (step := fun h x => headerEntry phOff h x.enc) (π := Headers.notes) (p := fun x => x.type = 4) (g := fun x b => b ++ [x.vaddr]) (fun c x hx hp => ?_) (fun c x hx hp => ?_) h
  · rw [e]
    generalize hs.filter _ = l
    generalize h.notes = b
    induction l generalizing b with
    | nil => simp
    | cons x l ih => rw [List.foldl_cons, ih]; simp
  · obtain ⟨e1, e2, e3⟩ := field_header (hf x hx)
    unfold headerEntry
    simp only [e1, e2, e3]
    have hp : ¬ x.type = 4 := by simpa using hp
    split
    · rfl
    · split <;> rfl
  · obtain ⟨e1, e2, e3⟩ := field_header (hf x hx)
    unfold headerEntry
    simp only [e1, e2]
    have hp : x.type = 4 := by simpa using hp
    rw [if_neg (by omega), if_pos hp]

theorem headers_dynamic (h : Headers) : (hs.foldl (fun h x => headerEntry phOff h x.enc) h).dynamic = (hs.filter (·.type = 2)).foldl (fun _ x => some (x.vaddr, x.filesz)) h.dynamic := by
  refine fold_part (π := Headers.dynamic) (p := fun (x : Header) => x.type = 2) (g := fun (x : Header) _ => some (x.vaddr, x.filesz)) (fun c x hx hp => ?_) (fun c x hx hp => ?_) h
  · obtain ⟨e1, e2, e3⟩ := field_header (hf x hx)
    unfold headerEntry
    simp only [e1, e2, e3]
    have hp : ¬ x.type = 2 := by simpa using hp
    split
    · rfl
    · split <;> rfl
  · obtain ⟨e1, e2, e3⟩ := field_header (hf x hx)
    unfold headerEntry
    simp only [e1, e2, e3]
    have hp : x.type = 2 := by simpa using hp
    rw [if_neg (by omega), if_neg (by omega), if_pos hp]
end

/-! ### The dynamic section -/

theorem dynLoop_of {mem : Nat → Option Byte} {base : Nat} (dyn : List (Nat × Nat)) (hp : ∀ e ∈ dyn, Pair64 e) : ∀ i, BytesIn mem (base + 16 * i) (dyn.flatMap encPair) →
    dynLoop mem base dyn.length i = .ok (((dyn.find? fun e => e.1 = 21 ∧ e.2 ≠ 0).map (·.2)).getD 0) := by
  induction dyn with
  | nil => intro i _; rfl
  | cons e dyn ih =>
    intro i hb
    rw [List.flatMap_cons] at hb
    simp only [List.length_cons, dynLoop]
    rw [readObj_of (bytesIn_left hb) (encPair_len e), Res.bind_ok]
    have hf := field_pair (hp e (by simp)) []
    rw [List.append_nil] at hf
    rw [hf.1, hf.2]
    have hn := bytesIn_right hb
    rw [encPair_len, show base + 16 * i + 16 = base + 16 * (i + 1) by omega] at hn
    by_cases h : e.1 = 21 ∧ e.2 ≠ 0
    · rw [if_pos h, List.find?_cons_of_pos (by simpa using h)]; rfl
    · rw [if_neg h, List.find?_cons_of_neg (by simpa using h)]
      exact ih (fun e he => hp e (by simp [he])) (i + 1) hn

theorem elements_of {n item : Nat} (h0 : 0 < item) : elements (item * n) item = .ok n := by
  unfold elements
  rw [if_neg (by rintro ⟨_, h⟩; exact h (Nat.mul_mod_right item n)), Nat.mul_div_cancel_left n h0]

theorem extractDtDebug_of {mem : Nat → Option Byte} {va base : Nat} {dyn : List (Nat × Nat)} (hp : ∀ e ∈ dyn, Pair64 e) (hb : BytesIn mem ((va + base) % 2 ^ 64) (dyn.flatMap encPair)) :
    extractDtDebug mem va (16 * dyn.length) base = .ok (((dyn.find? fun e => e.1 = 21 ∧ e.2 ≠ 0).map (·.2)).getD 0) := by
  unfold extractDtDebug
  rw [elements_of (by decide), Res.bind_ok, W64_eq]
  exact dynLoop_of dyn hp 0 (by simpa using hb)

/-! ### Notes -/

theorem note_step {w : World} {base va : Nat} {n : NoteRec} {notes : List Nat} (h : NoteIn w.mem ((va + base) % 2 ^ 64) n) :
    noteLoop w base (va :: notes) = if n.isBuildId then .ok (w.findId n.desc) else noteLoop w base notes := by
  obtain ⟨h1, h2, h3, h4, h5, h6⟩ := h
  rw [noteLoop, W64_eq]
  generalize (va + base) % 2 ^ 64 = a at *
  have hr := readObj_of (n := 12) (bytesIn_left h5) (by simp [leBytes_len])
  have hn : BytesIn w.mem (a + 12) n.name := by
    have := bytesIn_right h5
    simpa [leBytes_len] using this
  simp only [hr, Res.bind_ok]
  have f0 : field (leBytes 4 n.name.length ++ leBytes 4 n.desc.length ++ leBytes 4 n.type) 0 4 = n.name.length := by
    simpa using field_mid (a := []) (b := leBytes 4 n.desc.length ++ leBytes 4 n.type) (n := 4) (v := n.name.length) (off := 0) rfl (by omega)
  have f4 : field (leBytes 4 n.name.length ++ leBytes 4 n.desc.length ++ leBytes 4 n.type) 4 4 = n.desc.length := by
    simpa using field_mid (a := leBytes 4 n.name.length) (b := leBytes 4 n.type) (n := 4) (v := n.desc.length) (off := 4) (leBytes_len _ _) (by omega)
  have f8 : field (leBytes 4 n.name.length ++ leBytes 4 n.desc.length ++ leBytes 4 n.type) 8 4 = n.type := by
    simpa using field_mid (a := leBytes 4 n.name.length ++ leBytes 4 n.desc.length) (b := []) (n := 4) (v := n.type) (off := 8) (by simp [leBytes_len]) (by omega)
  rw [f0, f4, f8]
  unfold NoteRec.isBuildId
  by_cases ht : n.type = 3
  · rw [if_neg (by simpa using ht)]
    have hne : n.name ≠ [] := by intro e; rw [e] at h4; cases h4
    have hd : n.name = n.name.dropLast ++ [0] := by
      have := List.dropLast_concat_getLast hne
      rw [List.getLast?_eq_some_getLast hne] at h4
      rw [Option.some.inj h4] at this
      exact this.symm
    rw [if_neg (by simpa using hne), readInto_of hn, h4, if_pos rfl]
    by_cases hg : n.name = [0x47, 0x4e, 0x55, 0]
    · have h16 := h6 (by rw [hg]; rfl)
      rw [if_neg (by rw [hg]; decide), if_pos (by simp [ht, hg]), readInto_of (by rw [show a + 12 + 4 = a + 16 by omega]; exact h16)]
      rfl
    · rw [if_pos (by intro e; rw [e] at hd; exact hg hd), if_neg (by simpa using fun _ => hg)]
  · rw [if_pos ht, if_neg (by simp [ht])]

theorem noteLoop_of {w : World} {base : Nat} (hs : List Header) : ∀ notes : List NoteRec, hs.length = notes.length → (∀ e ∈ hs.zip notes, NoteIn w.mem ((e.1.vaddr + base) % 2 ^ 64) e.2) →
    noteLoop w base (hs.map (·.vaddr)) = .ok ((notes.find? (·.isBuildId)).bind fun n => w.findId n.desc) := by
  induction hs with
  | nil => intro notes hl _; cases notes with
    | nil => rfl
    | cons _ _ => cases hl
  | cons h hs ih =>
    intro notes hl hn
    cases notes with
    | nil => cases hl
    | cons n notes =>
      rw [List.map_cons, note_step (hn (h, n) (by simp))]
      cases hb : n.isBuildId with
      | true => rw [if_pos rfl, List.find?_cons_of_pos hb]; rfl
      | false =>
        rw [if_neg (by simp), List.find?_cons_of_neg (by simp [hb])]
        exact ih notes (by simpa using hl) fun e he => hn e (by simp [he])

/-! ### The link map -/

/-- What an entry for a library does. -/
def libStep (w : World) (p : Proc) (l : LinkMap) : Proc :=
  if (p.vdsoBase ≠ 0 ∧ l.load = p.vdsoBase) ∨ l.nameAddr = 0 ∨ l.name = [] then p else addElfObject w p l.name none l.load

theorem mapEntry_lib {w : World} {first : Nat} {l : LinkMap} {next prev : Nat} (h1 : l.load < 2 ^ 64) (h2 : l.nameAddr < 2 ^ 64) (h3 : next < 2 ^ 64) (hf : l.addr ≠ first)
    (hs : l.nameAddr ≠ 0 → w.str l.nameAddr = .ok l.name) (p : Proc) : mapEntry w first l.addr (l.enc next prev) p = .ok (libStep w p l) := by
  obtain ⟨e1, e2, e3⟩ := field_link (prev := prev) h1 h2 h3
  unfold mapEntry libStep
  simp only [e1, e2]
  rw [if_neg hf]
  by_cases hv : p.vdsoBase ≠ 0 ∧ l.load = p.vdsoBase
  · rw [if_pos hv, if_pos (Or.inl hv)]
  · rw [if_neg hv]
    by_cases hn : l.nameAddr = 0
    · rw [if_pos hn, if_pos (Or.inr (Or.inl hn))]
    · rw [if_neg hn, hs hn, Res.bind_ok]
      by_cases he : l.name = []
      · rw [if_pos he, if_pos (Or.inr (Or.inr he))]; rfl
      · rw [if_neg he, if_neg (by rintro (h | h | h); exact hv h; exact hn h; exact he h)]; rfl

theorem mapsLoop_libs {w : World} {first : Nat} (ls : List LinkMap) : ∀ (n a : Nat) (p : Proc), ls.length < n → LinksFrom w.mem a ls → (∀ l ∈ ls, l.addr ≠ first) →
    (∀ l ∈ ls, l.nameAddr ≠ 0 → w.str l.nameAddr = .ok l.name) → mapsLoop w first n a p = some (ls.foldl (libStep w) p, true) := by
  induction ls with
  | nil =>
    intro n a p hn hl _ _
    cases n with
    | zero => omega
    | succ n => rw [show a = 0 from hl]; rfl
  | cons l ls ih =>
    intro n a p hn hl hf hs
    cases n with
    | zero => omega
    | succ n =>
      obtain ⟨e, h0, h1, h2, next, prev, h3, hb, hr⟩ := hl
      subst e
      unfold mapsLoop
      rw [if_neg h0, readObj_of hb (by simp [LinkMap.enc, leBytes_len])]
      simp only
      rw [mapEntry_lib h1 h2 h3 (hf l (by simp)) (hs l (by simp))]
      simp only
      rw [(field_link (prev := prev) h1 h2 h3).2.2]
      exact ih n next _ (by simpa using hn) hr (fun l hl => hf l (by simp [hl])) (fun l hl => hs l (by simp [hl]))

/-- What is in a map after these have been put into it. -/
def emplaceAll (l : List (Nat × Obj)) (m : OMap Obj) : OMap Obj := l.foldl (fun m e => m.emplace e.1 e.2) m

theorem emplaceAll_append (a b : List (Nat × Obj)) (m : OMap Obj) : emplaceAll (a ++ b) m = emplaceAll b (emplaceAll a m) := by unfold emplaceAll; rw [List.foldl_append]

theorem sorted_emplaceAll (l : List (Nat × Obj)) : ∀ m, OMap.Sorted m → OMap.Sorted (emplaceAll l m) := by
  induction l with
  | nil => intro m h; exact h
  | cons e l ih => intro m h; exact ih _ (OMap.sorted_emplace h)

theorem mem_emplaceAll {l : List (Nat × Obj)} : ∀ {m : OMap Obj}, (l.map (·.1)).Nodup → (∀ e ∈ l, ∀ e' ∈ m, e'.1 ≠ e.1) → ∀ x, x ∈ emplaceAll l m ↔ x ∈ m ∨ x ∈ l := by
  induction l with
  | nil => intro m _ _ x; simp [emplaceAll]
  | cons e l ih =>
    intro m hn hd x
    rw [List.map_cons, List.nodup_cons] at hn
    have hm : ∀ y, y ∈ m.emplace e.1 e.2 ↔ y = e ∨ y ∈ m := by
      intro y
      constructor
      · intro h; exact OMap.mem_emplace h
      · rintro (h | h)
        · subst h; exact OMap.emplace_new fun e' he' => hd y (by simp) e' he'
        · exact OMap.mem_emplace_of_mem h
    show x ∈ emplaceAll l (m.emplace e.1 e.2) ↔ _
    rw [ih hn.2 (fun e' he' y hy => by
      rcases (hm y).1 hy with h | h
      · subst h; intro e1; exact hn.1 (List.mem_map.2 ⟨e', he', e1.symm⟩)
      · exact hd e' (by simp [he']) y h), hm]
    simp only [List.mem_cons]
    constructor
    · rintro ((h | h) | h)
      · exact Or.inr (Or.inl h)
      · exact Or.inl h
      · exact Or.inr (Or.inr h)
    · rintro (h | h | h)
      · exact Or.inl (Or.inr h)
      · exact Or.inl (Or.inl h)
      · exact Or.inr h

/-- The libraries of the loop. -/
def libObjects (w : World) (vdsoBase : Nat) (ls : List LinkMap) : List (Nat × Obj) :=
  (ls.filter fun l => ¬ ((vdsoBase ≠ 0 ∧ l.load = vdsoBase) ∨ l.nameAddr = 0 ∨ l.name = [])).map fun l => (l.load, ⟨l.name, memoryId w l.load, none⟩)

theorem addElfObject_none (w : World) (p : Proc) (name : Path) (a : Nat) : addElfObject w p name none a = { p with objects := p.objects.emplace a ⟨name, memoryId w a, none⟩ } := by
  unfold addElfObject memoryId
  cases w.elfAt a 0x4000 <;> rfl

theorem libs_fold (w : World) (ls : List LinkMap) : ∀ p : Proc, ls.foldl (libStep w) p = { p with objects := emplaceAll (libObjects w p.vdsoBase ls) p.objects } := by
  induction ls with
  | nil => intro p; rfl
  | cons l ls ih =>
    intro p
    rw [List.foldl_cons, ih]
    unfold libStep libObjects
    rw [List.filter_cons]
    by_cases h : (p.vdsoBase ≠ 0 ∧ l.load = p.vdsoBase) ∨ l.nameAddr = 0 ∨ l.name = []
    · rw [if_pos h, if_neg (by rw [decide_eq_true_eq]; exact fun hh => hh h)]
    · rw [if_neg h, if_pos (by rw [decide_eq_true_eq]; exact h)]
      rw [addElfObject_none]
      rfl

end Pstack.Startup
