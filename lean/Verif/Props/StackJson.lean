import Verif.Model.StackJson
import Verif.Spec.StackJson
import Verif.Proof.DumpCfa
/-
C101: the stacks as JSON.
-/
namespace Pstack.Props
open Pstack.Reader Pstack.Elf Pstack.Spec Pstack.Json Pstack.DumpCfa Pstack.StackJson

/-- All the strings of a frame are made of plain code points. -/
def FramePlain (f : JFrame (List Nat)) : Prop :=
  ∀ p, f.place = some p → (∀ d, p.die = some d → ∀ c ∈ d.name, Plain c) ∧ (∀ s, p.sym = some s → ∀ c ∈ s.2, Plain c) ∧
    (∀ s ∈ p.source, ∀ c ∈ s.1, Plain c)

def LwpPlain (l : JLwp (List Nat)) : Prop := (∀ n, l.name = some n → ∀ c ∈ n, Plain c) ∧ ∀ f ∈ l.stack, FramePlain f

theorem held_list {α β : Type} (g : α → β) (t : α → Tree (List Nat)) (u : β → Tree (List Byte)) : ∀ l : List α,
    (∀ a ∈ l, u (g a) = held (t a)) → (l.map g).map u = heldItems (l.map t)
  | [], _ => by simp [heldItems]
  | a :: l, h => by
    simp only [List.map_cons]
    rw [heldItems, h a (by simp), held_list g t u l (fun x hx => h x (by simp [hx]))]

theorem values_list {α : Type} (t : α → Tree (List Nat)) (v : α → JVal) : ∀ l : List α, (∀ a ∈ l, value (t a) = v a) →
    values (l.map t) = l.map v
  | [], _ => by simp [values]
  | a :: l, h => by
    simp only [List.map_cons]
    rw [values, h a (by simp), values_list t v l (fun x hx => h x (by simp [hx]))]

theorem plain_list {α : Type} (t : α → Tree (List Nat)) : ∀ l : List α, (∀ a ∈ l, PlainTree (t a)) → PlainItems (l.map t)
  | [], _ => by simp [PlainItems]
  | a :: l, h => by
    simp only [List.map_cons]
    rw [PlainItems]
    exact ⟨h a (by simp), plain_list t l (fun x hx => h x (by simp [hx]))⟩

theorem dieOffset_held (nod : Bool) (p : JPlace (List Nat)) : dieOffset nod (placeHeld p) = dieOffset nod p := by
  unfold dieOffset dieOf placeHeld
  cases nod with
  | true => rfl
  | false => cases p.die <;> rfl

theorem offset_held (nod : Bool) (f : JFrame (List Nat)) : functionOffset nod (frameHeld f) = functionOffset nod f := by
  unfold functionOffset frameHeld
  cases f.place with
  | none => rfl
  | some p =>
    simp only [Option.map_some, dieOffset_held]
    unfold placeHeld
    cases p.sym <;> rfl

theorem lit_empty : lit "" = utf8s (charCodes "") := by decide

theorem jsonDie_held (nod : Bool) (f : JFrame (List Nat)) : dieName lit nod (frameHeld f) = utf8s (dieName charCodes nod f) := by
  unfold dieName frameHeld dieOf placeHeld
  cases f.place with
  | none => exact lit_empty
  | some p =>
    cases nod with
    | true => exact lit_empty
    | false => cases h : p.die <;> simp only [Option.map_some, h] <;> first | exact lit_empty | rfl

theorem jsonDie_spec (nod : Bool) (f : JFrame (List Nat)) : dieName charCodes nod f = functionName nod f := by
  unfold dieName functionName dieOf
  cases f.place with
  | none => cases nod <;> rfl
  | some p =>
    cases nod with
    | true => rfl
    | false => cases h : p.die <;> simp [h, charCodes]

theorem jsonDie_plain (nod : Bool) (f : JFrame (List Nat)) (h : FramePlain f) : ∀ c ∈ functionName nod f, Plain c := by
  unfold functionName
  cases nod with
  | true => simp
  | false =>
    cases hp : f.place with
    | none => simp
    | some p =>
      cases hd : p.die with
      | none => simp [hd]
      | some d => simpa [hd] using (h p hp).1 d hd

theorem src_tree (s : List Nat × Int) (h : ∀ c ∈ s.1, Plain c) :
    srcTree lit (utf8s s.1, s.2) = held (srcTree charCodes s) ∧
    value (srcTree charCodes s) = .obj [(charCodes "file", .str (utf16s s.1)), (charCodes "line", .int s.2)] ∧
    PlainTree (srcTree charCodes s) := by
  unfold srcTree
  simp only [held, heldFields, value, members, PlainTree, PlainFields, utf8s_codes (show PlainText "file" by decide),
    utf8s_codes (show PlainText "line" by decide), utf16s_codes (show PlainText "file" by decide),
    utf16s_codes (show PlainText "line" by decide), true_and, and_true]
  exact ⟨plain_codes (by decide), h, plain_codes (by decide)⟩

theorem named_sym_tree (s : Sym × List Nat) (h : ∀ c ∈ s.2, Plain c) :
    namedSymTree lit (s.1, utf8s s.2) = held (namedSymTree charCodes s) ∧
    value (namedSymTree charCodes s) = .obj [(charCodes "st_name", .str (utf16s s.2)), (charCodes "st_value", .int s.1.value),
      (charCodes "st_size", .int s.1.size), (charCodes "st_info", .int s.1.info), (charCodes "st_other", .int s.1.other),
      (charCodes "st_shndx", .int s.1.shndx)] ∧
    PlainTree (namedSymTree charCodes s) := by
  unfold namedSymTree
  simp only [held, heldFields, value, members, PlainTree, PlainFields, utf8s_codes (show PlainText "st_name" by decide),
    utf8s_codes (show PlainText "st_value" by decide), utf8s_codes (show PlainText "st_size" by decide),
    utf8s_codes (show PlainText "st_info" by decide), utf8s_codes (show PlainText "st_other" by decide),
    utf8s_codes (show PlainText "st_shndx" by decide), utf16s_codes (show PlainText "st_name" by decide),
    utf16s_codes (show PlainText "st_value" by decide), utf16s_codes (show PlainText "st_size" by decide),
    utf16s_codes (show PlainText "st_info" by decide), utf16s_codes (show PlainText "st_other" by decide),
    utf16s_codes (show PlainText "st_shndx" by decide), true_and, and_true]
  exact ⟨plain_codes (by decide), h, plain_codes (by decide), plain_codes (by decide), plain_codes (by decide), plain_codes (by decide),
    plain_codes (by decide)⟩

/-- The last two fields of a frame, and the load address. -/
def placeSym (f : JFrame (List Nat)) : Tree (List Nat) := optTree (namedSymTree charCodes) (f.place.bind JPlace.sym)

theorem place_sym (f : JFrame (List Nat)) (h : FramePlain f) :
    optTree (namedSymTree lit) ((frameHeld f).place.bind JPlace.sym) = held (placeSym f) ∧
    value (placeSym f) = orNull (fun s => .obj [(charCodes "st_name", .str (utf16s s.2)), (charCodes "st_value", .int s.1.value),
      (charCodes "st_size", .int s.1.size), (charCodes "st_info", .int s.1.info), (charCodes "st_other", .int s.1.other),
      (charCodes "st_shndx", .int s.1.shndx)]) (f.place.bind JPlace.sym) ∧ PlainTree (placeSym f) := by
  unfold placeSym frameHeld orNull
  cases hp : f.place with
  | none => exact ⟨by simp [optTree, held], by simp [optTree, value], by simp [optTree, PlainTree]⟩
  | some p =>
    cases hs : p.sym with
    | none => exact ⟨by simp [optTree, held, placeHeld, hs], by simp [optTree, value, hs], by simp [optTree, PlainTree, hs]⟩
    | some s =>
      obtain ⟨a, b, c⟩ := named_sym_tree s ((h p hp).2.1 s hs)
      refine ⟨by simpa [optTree, placeHeld, hs] using a, by simpa [optTree, hs] using b, by simpa [optTree, hs] using c⟩

def placeSource {σ : Type} (f : JFrame σ) : List (σ × Int) := match f.place with | none => [] | some p => p.source

theorem place_source (f : JFrame (List Nat)) (h : FramePlain f) :
    (placeSource (frameHeld f)).map (srcTree lit) = heldItems ((placeSource f).map (srcTree charCodes)) ∧
    values ((placeSource f).map (srcTree charCodes)) = ((f.place.map JPlace.source).getD []).map
      (fun s => .obj [(charCodes "file", .str (utf16s s.1)), (charCodes "line", .int s.2)]) ∧
    PlainItems ((placeSource f).map (srcTree charCodes)) := by
  unfold placeSource frameHeld
  cases hp : f.place with
  | none => exact ⟨by simp [heldItems], by simp [values], by simp [PlainItems]⟩
  | some p =>
    have hs := (h p hp).2.2
    refine ⟨?_, ?_, ?_⟩
    · exact held_list _ _ _ _ (fun a ha => (src_tree a (hs a ha)).1)
    · exact values_list _ _ _ (fun a ha => (src_tree a (hs a ha)).2.1)
    · exact plain_list _ _ (fun a ha => (src_tree a (hs a ha)).2.2)

def placeLoad {σ : Type} (f : JFrame σ) : Int := match f.place with | none => 0 | some p => (p.addr - p.objIp).toNat

theorem place_load (f : JFrame (List Nat)) : placeLoad (frameHeld f) = placeLoad f ∧
    placeLoad f = ((f.place.map (fun p => (p.addr - p.objIp).toNat)).getD 0 : Nat) := by
  unfold placeLoad frameHeld placeHeld
  cases f.place <;> exact ⟨rfl, rfl⟩

theorem frameTree_eq {σ : Type} (k : String → σ) (nod : Bool) (f : JFrame σ) : frameTree k nod f =
    .obj true [(k "ip", .int f.rawIP.toNat), (k "offset", .int (functionOffset nod f).toNat), (k "trampoline", .bool f.trampoline),
      (k "die", .str (dieName k nod f)), (k "loadaddr", .int (placeLoad f)),
      (k "symbol", optTree (namedSymTree k) (f.place.bind JPlace.sym)), (k "source", .list ((placeSource f).map (srcTree k)))] := by
  unfold frameTree placeLoad placeSource
  cases f.place <;> rfl

theorem frame_tree (nod : Bool) (f : JFrame (List Nat)) (h : FramePlain f) :
    frameTree lit nod (frameHeld f) = held (frameTree charCodes nod f) ∧
    value (frameTree charCodes nod f) = frameObject nod f (functionOffset nod f).toNat ∧ PlainTree (frameTree charCodes nod f) := by
  obtain ⟨s1, s2, s3⟩ := place_sym f h
  obtain ⟨q1, q2, q3⟩ := place_source f h
  obtain ⟨l1, l2⟩ := place_load f
  have hd := jsonDie_plain nod f h
  refine ⟨?_, ?_, ?_⟩
  · rw [frameTree_eq, frameTree_eq, s1, q1, l1, offset_held, jsonDie_held]
    simp only [held, heldFields, placeSym, utf8s_codes (show PlainText "ip" by decide), utf8s_codes (show PlainText "offset" by decide),
      utf8s_codes (show PlainText "trampoline" by decide), utf8s_codes (show PlainText "die" by decide),
      utf8s_codes (show PlainText "loadaddr" by decide), utf8s_codes (show PlainText "symbol" by decide),
      utf8s_codes (show PlainText "source" by decide)]
    rfl
  · rw [frameTree_eq]
    unfold placeSym at s2
    simp only [value, members, s2, q2, l2, jsonDie_spec, frameObject, utf16s_codes (show PlainText "ip" by decide),
      utf16s_codes (show PlainText "offset" by decide),
      utf16s_codes (show PlainText "trampoline" by decide), utf16s_codes (show PlainText "die" by decide),
      utf16s_codes (show PlainText "loadaddr" by decide), utf16s_codes (show PlainText "symbol" by decide),
      utf16s_codes (show PlainText "source" by decide)]
  · rw [frameTree_eq, jsonDie_spec]
    unfold placeSym at s3
    simp only [PlainTree, PlainFields, and_true, true_and]
    exact ⟨plain_codes (by decide), plain_codes (by decide), plain_codes (by decide), plain_codes (by decide), hd, plain_codes (by decide),
      plain_codes (by decide), s3, plain_codes (by decide), q3⟩

theorem sub_nat {a b : BitVec 64} (h : b.toNat ≤ a.toNat) : ((a - b).toNat : Int) = (a.toNat : Int) - b.toNat := by
  have : (a - b).toNat = a.toNat - b.toNat := BitVec.toNat_sub_of_le (by simpa [BitVec.le_def] using h)
  omega

theorem sub_not_all {a b : BitVec 64} (h : b.toNat ≤ a.toNat) (ha : a.toNat < 2 ^ 64 - 1) : a - b ≠ BitVec.allOnes 64 := by
  intro he
  have := sub_nat h
  rw [he] at this
  simp at this
  omega

theorem all_nat : ((BitVec.allOnes 64).toNat : Int) = unknownOffset := by simp [unknownOffset]

theorem offset_spec (nod : Bool) (f : JFrame (List Nat)) (h : AfterStart nod f)
    (hv : ∀ p s, f.place = some p → p.sym = some s → s.1.value < 2 ^ 64) :
    ((functionOffset nod f).toNat : Int) = frameOffset nod f := by
  cases hp : f.place with
  | none =>
    unfold functionOffset frameOffset
    simp only [hp, Option.bind_none]
    exact all_nat
  | some p =>
    obtain ⟨hip, hst⟩ := h p hp
    have viaSym : dieOffset nod p = BitVec.allOnes 64 → (frameStart nod p = p.sym.map (fun s => s.1.value)) →
        ((functionOffset nod f).toNat : Int) = frameOffset nod f := by
      intro h1 h2
      unfold functionOffset frameOffset
      simp only [hp]
      rw [if_pos h1]
      cases hs : p.sym with
      | none => simp only [Option.bind_some, h2, hs, Option.map_none]; exact all_nat
      | some s =>
        have e : (BitVec.ofNat 64 s.1.value).toNat = s.1.value := by rw [BitVec.toNat_ofNat, Nat.mod_eq_of_lt (hv p s hp hs)]
        have := hst s.1.value (by rw [h2, hs]; rfl)
        simp only [Option.bind_some, h2, hs, Option.map_some, Option.getD_some]
        rw [sub_nat (by rw [e]; exact this), e]
    have viaDie : ∀ l : BitVec 64, dieOffset nod p = p.objIp - l → frameStart nod p = some l.toNat →
        ((functionOffset nod f).toNat : Int) = frameOffset nod f := by
      intro l h1 h2
      have hl := hst _ h2
      unfold functionOffset frameOffset
      simp only [hp]
      rw [if_neg (by rw [h1]; exact sub_not_all hl hip), h1]
      simp only [Option.bind_some, h2, Option.map_some, Option.getD_some]
      exact sub_nat hl
    cases nod with
    | true => exact viaSym rfl rfl
    | false =>
      cases hd : p.die with
      | none => exact viaSym (by simp [dieOffset, dieOf, hd]) (by simp [frameStart, hd])
      | some d =>
        cases hl : d.low with
        | some l => exact viaDie l (by simp [dieOffset, dieOf, hd, hl]) (by simp [frameStart, hd, hl])
        | none =>
          cases hr : d.range with
          | some r => exact viaDie r (by simp [dieOffset, dieOf, hd, hl, hr]) (by simp [frameStart, hd, hl, hr])
          | none => exact viaSym (by simp [dieOffset, dieOf, hd, hl, hr]) (by simp [frameStart, hd, hl, hr])

theorem type_name (n : Nat) : threadType n = threadTypeName n ∧ PlainText (threadType n) := by
  match n with
  | 0 | 1 | 2 => exact ⟨rfl, by decide⟩
  | n + 3 => exact ⟨rfl, show PlainText "unknown type" by decide⟩

theorem held_append : ∀ a b : List (List Nat × Tree (List Nat)), heldFields (a ++ b) = heldFields a ++ heldFields b
  | [], b => by simp [heldFields]
  | (k, x) :: a, b => by simp [heldFields, held_append a b]

theorem members_append : ∀ a b : List (List Nat × Tree (List Nat)), members (a ++ b) = members a ++ members b
  | [], b => by simp [members]
  | (k, x) :: a, b => by simp [members, members_append a b]

theorem plain_append : ∀ a b : List (List Nat × Tree (List Nat)), PlainFields a → PlainFields b → PlainFields (a ++ b)
  | [], b, _, h => by simpa using h
  | (k, x) :: a, b, h, h' => by
    rw [PlainFields] at h
    rw [List.cons_append, PlainFields]
    exact ⟨h.1, h.2.1, plain_append a b h.2.2 h'⟩

/-- The text for any threads, with the offsets the program finds. -/
theorem lwp_tree (nod : Bool) (l : JLwp (List Nat)) (h : LwpPlain l) :
    lwpTree lit nod (lwpHeld l) = held (lwpTree charCodes nod l) ∧ PlainTree (lwpTree charCodes nod l) ∧
    (∀ off : JFrame (List Nat) → Int, (∀ f ∈ l.stack, ((functionOffset nod f).toNat : Int) = off f) →
      value (lwpTree charCodes nod l) = threadObject nod off l) := by
  have a1 := held_list frameHeld (frameTree charCodes nod) (frameTree lit nod) l.stack (fun f hf => (frame_tree nod f (h.2 f hf)).1)
  have a2 := plain_list (frameTree charCodes nod) l.stack (fun f hf => (frame_tree nod f (h.2 f hf)).2.2)
  have hn : optTree Tree.str (l.name.map utf8s) = held (optTree Tree.str l.name) ∧ PlainTree (optTree Tree.str l.name) ∧
      value (optTree Tree.str l.name) = orNull (fun n => .str (utf16s n)) l.name := by
    cases hl : l.name with
    | none => exact ⟨by simp [optTree, held], by simp [optTree, PlainTree], by simp [optTree, value, orNull]⟩
    | some n =>
      refine ⟨by simp [optTree, held], ?_, by simp [optTree, value, orNull]⟩
      simp only [optTree]
      rw [PlainTree]
      exact h.1 n hl
  obtain ⟨n1, n2, n3⟩ := hn
  unfold lwpTree lwpHeld threadObject
  refine ⟨?_, ?_, ?_⟩
  · dsimp only
    rw [held, held_append, a1, n1]
    simp only [held, heldFields, utf8s_codes (show PlainText "ti_lid" by decide), utf8s_codes (show PlainText "name" by decide),
      utf8s_codes (show PlainText "ti_stack" by decide)]
    cases l.thread with
    | none => simp [heldFields]
    | some t =>
      simp only [held, heldFields, utf8s_codes (type_name t.2.1).2, utf8s_codes (show PlainText "ti_tid" by decide),
        utf8s_codes (show PlainText "ti_type" by decide), utf8s_codes (show PlainText "ti_pri" by decide)]
  · rw [PlainTree]
    refine plain_append _ _ ?_ ?_
    · cases l.thread with
      | none => simp [PlainFields]
      | some t =>
        simp only [PlainTree, PlainFields, and_true, true_and]
        exact ⟨plain_codes (by decide), plain_codes (by decide), plain_codes (type_name t.2.1).2, plain_codes (by decide)⟩
    · simp only [PlainTree, PlainFields, and_true, true_and]
      exact ⟨plain_codes (by decide), plain_codes (by decide), n2, plain_codes (by decide), a2⟩
  · intro off ho
    have a3 := values_list (frameTree charCodes nod) (fun f => frameObject nod f (off f)) l.stack
      (fun f hf => by rw [(frame_tree nod f (h.2 f hf)).2.1, ho f hf])
    rw [value, members_append]
    simp only [value, members, a3, n3, utf16s_codes (show PlainText "ti_lid" by decide), utf16s_codes (show PlainText "name" by decide),
      utf16s_codes (show PlainText "ti_stack" by decide)]
    cases l.thread with
    | none => simp [members]
    | some t =>
      have et := utf16s_codes (type_name t.2.1).2
      rw [(type_name t.2.1).1] at et
      simp only [value, members, et, utf16s_codes (show PlainText "ti_tid" by decide),
        utf16s_codes (show PlainText "ti_type" by decide), utf16s_codes (show PlainText "ti_pri" by decide), (type_name t.2.1).1,
        Option.map_some, Option.getD_some]

theorem stacks_text (nod : Bool) (off : JFrame (List Nat) → Int) (ls : List (JLwp (List Nat))) (hp : ∀ l ∈ ls, LwpPlain l)
    (ho : ∀ l ∈ ls, ∀ f ∈ l.stack, ((functionOffset nod f).toNat : Int) = off f) :
    ∃ txt, stacksJson nod (ls.map lwpHeld) = .ok txt ∧ parseJson txt = some (.arr (ls.map (threadObject nod off))) := by
  have b1 := held_list lwpHeld (lwpTree charCodes nod) (lwpTree lit nod) ls (fun l hl => (lwp_tree nod l (hp l hl)).1)
  have b2 := plain_list (lwpTree charCodes nod) ls (fun l hl => (lwp_tree nod l (hp l hl)).2.1)
  have b3 := values_list (lwpTree charCodes nod) (threadObject nod off) ls (fun l hl => (lwp_tree nod l (hp l hl)).2.2 off (ho l hl))
  obtain ⟨txt, p1, p2⟩ := C39_round_trip_partial (.list (ls.map (lwpTree charCodes nod))) (by rw [PlainTree]; exact b2)
  rw [held] at p1
  rw [value, b3] at p2
  exact ⟨txt, by rw [stacksJson, b1, p1], p2⟩

/-- C101. For every list of threads, the text is a JSON text for an array with one object for each thread, in order, and in it one
object for each frame, in order, with the address, the offset into the function, the function, the load address, the symbol and the
lines. Missing: frames before the start of their function (below), an unknown offset, which is shown as a number, and strings with
characters that C39 excludes. -/
theorem C101_stacks_partial (nod : Bool) (ls : List (JLwp (List Nat))) (hp : ∀ l ∈ ls, LwpPlain l)
    (ha : ∀ l ∈ ls, ∀ f ∈ l.stack, AfterStart nod f)
    (hv : ∀ l ∈ ls, ∀ f ∈ l.stack, ∀ p s, f.place = some p → p.sym = some s → s.1.value < 2 ^ 64) :
    ∃ txt, stacksJson nod (ls.map lwpHeld) = .ok txt ∧
      parseJson txt = some (.arr (ls.map (threadObject nod (frameOffset nod)))) :=
  stacks_text nod (frameOffset nod) ls hp (fun l hl f hf => offset_spec nod f (ha l hl f hf) (hv l hl f hf))

theorem offset_before_start (f : JFrame (List Nat)) (p : JPlace (List Nat)) (d : JDie (List Nat)) (start : BitVec 64)
    (hp : f.place = some p) (hd : p.die = some d) (hs : d.low = some start ∨ d.low = none ∧ d.range = some start)
    (hlt : p.objIp.toNat + 1 < start.toNat) :
    ((functionOffset false f).toNat : Int) = 2 ^ 64 + frameOffset false f ∧ frameOffset false f < 0 := by
  have e1 : dieOffset false p = p.objIp - start := by
    rcases hs with h | ⟨h, h'⟩ <;> simp [dieOffset, dieOf, hd, h]
    simp [h']
  have e2 : frameStart false p = some start.toNat := by
    rcases hs with h | ⟨h, h'⟩ <;> simp [frameStart, hd, h]
    simp [h']
  have hn : (p.objIp - start).toNat = 2 ^ 64 - start.toNat + p.objIp.toNat := by
    rw [BitVec.toNat_sub]
    exact Nat.mod_eq_of_lt (by omega)
  have hne : p.objIp - start ≠ BitVec.allOnes 64 := by
    intro he
    have h1 := congrArg BitVec.toNat he
    rw [hn] at h1
    simp at h1
    omega
  have h3 : functionOffset false f = p.objIp - start := by
    unfold functionOffset
    rw [hp]
    dsimp only
    rw [e1, if_neg hne]
  have h4 : frameOffset false f = (p.objIp.toNat : Int) - start.toNat := by
    unfold frameOffset
    rw [hp]
    simp only [Option.bind_some, e2, Option.map_some, Option.getD_some]
  rw [h3, h4, hn]
  omega

/-- C101 fails for a frame in a part of a function that lies before what is taken for its start, as the part of a function that is
seldom run may: for every thread with such frames the offsets written are not how far the addresses are from the start, but those
numbers (which are negative) modulo 2^64. -/
theorem C101_not_before_start (l : JLwp (List Nat)) (hl : LwpPlain l)
    (h : ∀ f ∈ l.stack, ∃ p d start, f.place = some p ∧ p.die = some d ∧ (d.low = some start ∨ d.low = none ∧ d.range = some start) ∧
      p.objIp.toNat + 1 < start.toNat) :
    ∃ txt, stacksJson false [lwpHeld l] = .ok txt ∧
      parseJson txt = some (.arr [threadObject false (fun f => 2 ^ 64 + frameOffset false f) l]) ∧
      ∀ f ∈ l.stack, frameOffset false f < 0 := by
  have hf : ∀ f ∈ l.stack, ((functionOffset false f).toNat : Int) = 2 ^ 64 + frameOffset false f ∧ frameOffset false f < 0 := by
    intro f hf
    obtain ⟨p, d, start, h1, h2, h3, h4⟩ := h f hf
    exact offset_before_start f p d start h1 h2 h3 h4
  obtain ⟨txt, t1, t2⟩ := stacks_text false (fun f => 2 ^ 64 + frameOffset false f) [l]
    (by intro x hx; rw [List.mem_singleton] at hx; subst hx; exact hl)
    (by intro x hx; rw [List.mem_singleton] at hx; subst hx; exact fun f h => (hf f h).1)
  exact ⟨txt, t1, t2, fun f h => (hf f h).2⟩

/-- C101: for every thread with frames in no object, the offset written for each is the number 18446744073709551615. -/
theorem C101_not_unknown (nod : Bool) (l : JLwp (List Nat)) (hn : ∀ n, l.name = some n → ∀ c ∈ n, Plain c)
    (h : ∀ f ∈ l.stack, f.place = none) :
    ∃ txt, stacksJson nod [lwpHeld l] = .ok txt ∧
      parseJson txt = some (.arr [threadObject nod (fun _ => 18446744073709551615) l]) := by
  refine stacks_text nod (fun _ => 18446744073709551615) [l] ?_ ?_
  · intro x hx
    rw [List.mem_singleton] at hx
    subst hx
    exact ⟨hn, fun f hf p hp => by rw [h f hf] at hp; cases hp⟩
  · intro x hx f hf
    rw [List.mem_singleton] at hx
    subst hx
    unfold functionOffset
    rw [h f hf]
    rfl

/-- Two threads, one with thread information and a name, with a frame in an object, a frame whose function has ranges, and a frame in
none; they meet the hypotheses. -/
def shownThreads : List (JLwp (List Nat)) :=
  [⟨some (0x7f0000000700#64, 1, 0), 100, some [0x61, 0x22], [
      ⟨0x401010#64, false, some ⟨0x401010#64, 0x1010#64, some ⟨[0x6d, 0x61, 0xe9], some 0x1000#64, none⟩,
        some (⟨1, 0x12, 0, 14, 0x1000, 64⟩, [0x6d]), [([0x61, 0x2e, 0x63], 12)]⟩⟩,
      ⟨0x402020#64, true, some ⟨0x40201f#64, 0x201f#64, some ⟨[0x66], none, some 0x2000#64⟩, none, []⟩⟩,
      ⟨0#64, false, none⟩]⟩,
   ⟨none, 101, none, []⟩]

/-- A thread with a frame before the start of its function. -/
def coldThread : JLwp (List Nat) :=
  ⟨none, 7, none, [⟨0x400f00#64, false, some ⟨0x400f00#64, 0xf00#64, some ⟨[0x66], none, some 0x1000#64⟩, none, []⟩⟩]⟩

theorem C101_example : (LwpPlain coldThread ∧ ∀ f ∈ coldThread.stack, ∃ p d start, f.place = some p ∧ p.die = some d ∧
      (d.low = some start ∨ d.low = none ∧ d.range = some start) ∧ p.objIp.toNat + 1 < start.toNat) ∧ (∀ l ∈ shownThreads, LwpPlain l) ∧ (∀ l ∈ shownThreads, ∀ f ∈ l.stack, AfterStart false f) ∧
    (∀ l ∈ shownThreads, ∀ f ∈ l.stack, ∀ p s, f.place = some p → p.sym = some s → s.1.value < 2 ^ 64) := by
  refine ⟨⟨?_, ?_⟩, ?_, ?_, ?_⟩
  · simp [coldThread, LwpPlain, FramePlain, Plain, IsScalar]
  · simp [coldThread]
  · simp [shownThreads, LwpPlain, FramePlain, Plain, IsScalar]
  · simp [shownThreads, AfterStart, frameStart]
  · simp only [shownThreads, List.mem_cons, List.not_mem_nil, or_false, forall_eq_or_imp, forall_eq]
    refine ⟨⟨?_, ?_, ?_⟩, ?_⟩
    · intro p s h1 h2; cases h1; cases h2; decide
    · intro p s h1 h2; cases h1; cases h2
    · intro p s h1 h2; cases h1
    · intro f hf; cases hf

end Pstack.Props
