import Verif.Model.Sections
import Verif.Spec.Sections
import Verif.Proof.Elf
import Verif.Props.Reader
/-
Property theorems C85: sections by name (Spec/Sections.lean).
-/
namespace Pstack.Props
open Pstack.Reader Pstack.Spec Pstack.Elf Pstack.Sections Pstack.Dwarf

theorem shdrBytes_length (h : Shdr) : (shdrBytes h).length = 64 := by simp [shdrBytes, leBytes_length]

theorem shdr_decode (h : Shdr) (hf : ShdrFits h) : Shdr.decode (shdrBytes h) = h := by
  obtain ⟨h1, h2, h3, h4, h5, h6, h7, h8, h9, h10⟩ := hf
  cases h with
  | mk a b c d e f g i j k =>
    simp only at h1 h2 h3 h4 h5 h6 h7 h8 h9 h10
    unfold Shdr.decode shdrBytes
    simp only [List.append_assoc, Shdr.mk.injEq]
    refine ⟨field_at [] _ 0 4 a rfl h1, ?_, ?_, ?_, ?_, ?_, ?_, ?_, ?_, ?_⟩
    · exact field_at (leBytes 4 a) _ 4 4 b (leBytes_length ..) h2
    · rw [← List.append_assoc]; exact field_at _ _ 8 8 c (by simp [leBytes_length]) h3
    · rw [← List.append_assoc, ← List.append_assoc]; exact field_at _ _ 16 8 d (by simp [leBytes_length]) h4
    · rw [← List.append_assoc, ← List.append_assoc, ← List.append_assoc]; exact field_at _ _ 24 8 e (by simp [leBytes_length]) h5
    · rw [← List.append_assoc, ← List.append_assoc, ← List.append_assoc, ← List.append_assoc]; exact field_at _ _ 32 8 f (by simp [leBytes_length]) h6
    · rw [← List.append_assoc, ← List.append_assoc, ← List.append_assoc, ← List.append_assoc, ← List.append_assoc]; exact field_at _ _ 40 4 g (by simp [leBytes_length]) h7
    · rw [← List.append_assoc, ← List.append_assoc, ← List.append_assoc, ← List.append_assoc, ← List.append_assoc, ← List.append_assoc]; exact field_at _ _ 44 4 i (by simp [leBytes_length]) h8
    · rw [← List.append_assoc, ← List.append_assoc, ← List.append_assoc, ← List.append_assoc, ← List.append_assoc, ← List.append_assoc, ← List.append_assoc]; exact field_at _ _ 48 8 j (by simp [leBytes_length]) h9
    · rw [← List.append_assoc, ← List.append_assoc, ← List.append_assoc, ← List.append_assoc, ← List.append_assoc, ← List.append_assoc, ← List.append_assoc, ← List.append_assoc]
      have := field_at (leBytes 4 a ++ leBytes 4 b ++ leBytes 8 c ++ leBytes 8 d ++ leBytes 8 e ++ leBytes 8 f ++ leBytes 4 g ++ leBytes 4 i ++ leBytes 8 j) [] 56 8 k (by simp [leBytes_length]) h10
      simpa using this

theorem readShdr_ok {f : ElfFile} (hw : f.io.WF) (hs : f.io.size + 2 ^ 16 < 2 ^ 64) {off : Nat} {h : Shdr} (hf : ShdrFits h) {rest : List Byte} (hd : f.io.content.drop off = shdrBytes h ++ rest) :
    off + 64 ≤ f.io.size ∧ readShdr f off = .ok h := by
  obtain ⟨hl, hw64⟩ := content_length f.io hw
  have hlen := congrArg List.length hd
  rw [List.length_drop, List.length_append, shdrBytes_length, hl] at hlen
  refine ⟨by omega, ?_⟩
  have e : f.io.readObj off 64 = .ok (shdrBytes h) := by
    unfold Rdr.readObj
    rw [if_neg (by decide), read_content f.io hw off 64 (by omega) (by rw [W64_eq]; omega), hd, List.take_left' (shdrBytes_length h)]
    show (if (shdrBytes h).length ≠ 64 then Res.exc else Res.ok (shdrBytes h)) = _
    rw [if_neg (by rw [shdrBytes_length]; decide)]
  unfold readShdr
  rw [e, Res.bind_ok, shdr_decode h hf]
  rfl

theorem view_notStart : ∀ (r : Rdr), r.WF → ∀ (start length off : Nat), 0 < start → start + length ≤ r.size → ¬ AtFileStart (r.view start length) off := by
  intro r
  induction r with
  | mem buf st size => intro _ start length off _ _ h; exact h
  | file data =>
    intro _ start length off hp _ h
    have : off + start = 0 := h
    omega
  | null => intro h; exact h.elim
  | window up o len ih =>
    intro hw start length off hp hb
    obtain ⟨h1, h2⟩ := hw
    have hu := content_length up h1
    have hb : start + length ≤ len := hb
    have hm : (o + start) % W64 = o + start := Nat.mod_eq_of_lt (by omega)
    show ¬ AtFileStart (up.view ((o + start) % W64) length) off
    rw [hm]
    exact ih h1 _ _ _ (by omega) (by omega)

/-- The sections before and after they are named. -/
def rawSects : Nat → List (Shdr × List Byte) → List Sect
  | _, [] => []
  | i, x :: l => ⟨x.1, i, []⟩ :: rawSects (i + 1) l

def fullSects : Nat → List (Shdr × List Byte) → List Sect
  | _, [] => []
  | i, x :: l => ⟨x.1, i, x.2⟩ :: fullSects (i + 1) l

theorem fullSects_get : ∀ (l : List (Shdr × List Byte)) (i j : Nat), (fullSects i l)[j]? = (l[j]?).map (fun x => ⟨x.1, i + j, x.2⟩) := by
  intro l
  induction l with
  | nil => intro i j; rfl
  | cons x l ih =>
    intro i j
    cases j with
    | zero => rfl
    | succ j =>
      rw [fullSects, List.getElem?_cons_succ, ih, List.getElem?_cons_succ, show i + 1 + j = i + (j + 1) by omega]

theorem rawSects_get : ∀ (l : List (Shdr × List Byte)) (i j : Nat), (rawSects i l)[j]? = (l[j]?).map (fun x => ⟨x.1, i + j, []⟩) := by
  intro l
  induction l with
  | nil => intro i j; rfl
  | cons x l ih =>
    intro i j
    cases j with
    | zero => rfl
    | succ j =>
      rw [rawSects, List.getElem?_cons_succ, ih, List.getElem?_cons_succ, show i + 1 + j = i + (j + 1) by omega]

theorem readShdrs_ok {f : ElfFile} {secs : List (Shdr × List Byte)} {k : Nat} (hs : HasSections f secs k) : ∀ (l : List (Shdr × List Byte)) (i : Nat), secs.drop i = l →
    readShdrs f l.length ((f.shoff + i * f.shentsize) % W64) i = (rawSects i l, .ok ⟨⟩) := by
  intro l
  induction l with
  | nil => intro i _; rfl
  | cons x l ih =>
    intro i hd
    obtain ⟨h, n⟩ := x
    have hx : secs[i]? = some (h, n) := by
      have := congrArg (·[0]?) hd
      simpa using this
    obtain ⟨hf, rest, hb⟩ := hs.headers i h n hx
    obtain ⟨h1, h2⟩ := readShdr_ok hs.wf hs.size hf hb
    have hsz := hs.size
    have hm : (f.shoff + i * f.shentsize) % W64 = f.shoff + i * f.shentsize := Nat.mod_eq_of_lt (by rw [W64_eq]; omega)
    have := ih (i + 1) (by
      have := congrArg (List.drop 1) hd
      rw [List.drop_drop] at this
      simpa using this)
    rw [List.length_cons, readShdrs, hm, h2]
    simp only
    rw [show f.shoff + i * f.shentsize + f.shentsize = f.shoff + (i + 1) * f.shentsize by rw [Nat.add_mul]; omega, this]
    rfl

/-- What the names lead to: the last section of a name. -/
theorem nameSects_ok {strs : Rdr} : ∀ (l : List (Shdr × List Byte)) (i : Nat) (m : List Byte → Option Nat), (∀ h n, (h, n) ∈ l → strs.readString h.name = .ok n) →
    ∃ m', nameSects strs (rawSects i l) i m = (fullSects i l, m', .ok ⟨⟩) ∧ (∀ x, (∀ (j : Nat) (h : Shdr), l[j]? ≠ some (h, x)) → m' x = m x) ∧
      ∀ x j h, LastNamed l x j h → m' x = some (i + j) := by
  intro l
  induction l with
  | nil =>
    intro i m _
    refine ⟨m, rfl, fun _ _ => rfl, ?_⟩
    intro x j h hx
    cases hx.1
  | cons y l ih =>
    intro i m hr
    obtain ⟨h, n⟩ := y
    obtain ⟨m', h1, h2, h3⟩ := ih (i + 1) (putName m n i) (fun h n hm => hr h n (List.mem_cons_of_mem _ hm))
    refine ⟨m', ?_, ?_, ?_⟩
    · rw [rawSects, nameSects, hr h n List.mem_cons_self]
      simp only
      rw [h1]
      rfl
    · intro x hx
      rw [h2 x (fun j h' => by have := hx (j + 1) h'; rwa [List.getElem?_cons_succ] at this)]
      have : x ≠ n := fun e => hx 0 h (by rw [e]; rfl)
      rw [putName, if_neg this]
    · intro x j h' hx
      obtain ⟨hx1, hx2⟩ := hx
      cases j with
      | zero =>
        rw [h2 x (fun j h'' => by have := hx2 (j + 1) h'' (by omega); rwa [List.getElem?_cons_succ] at this)]
        have : x = n := by cases hx1; rfl
        rw [putName, if_pos this]
        rfl
      | succ j =>
        rw [List.getElem?_cons_succ] at hx1
        rw [h3 x j h' ⟨hx1, fun q h'' hq => by have := hx2 (q + 1) h'' (by omega); rwa [List.getElem?_cons_succ] at this⟩]
        congr 1
        omega

/-- What has been read leads to the sections of the file. -/
structure SectsOf (secs : List (Shdr × List Byte)) (named : List Byte → Option Nat) : Prop where
  none : ∀ x, (∀ (j : Nat) (h : Shdr), secs[j]? ≠ Option.some (h, x)) → named x = Option.none
  some : ∀ x j h, LastNamed secs x j h → named x = Option.some j

theorem loadSects_ok {f : ElfFile} {secs : List (Shdr × List Byte)} {k : Nat} (hs : HasSections f secs k) : ∃ m, loadSects f = (fullSects 0 secs, m, .ok ⟨⟩) ∧ SectsOf secs m := by
  obtain ⟨h0, n0, hx, hnum⟩ := hs.number
  obtain ⟨h0', n0', hx', hstr⟩ := hs.strings
  cases hx.symm.trans hx'
  obtain ⟨hf, rest, hb⟩ := hs.headers 0 h0 n0 hx
  rw [Nat.zero_mul, Nat.add_zero] at hb
  obtain ⟨h1, h2⟩ := readShdr_ok hs.wf hs.size hf hb
  have hent := hs.entsize
  obtain ⟨x, l, hl⟩ : ∃ x l, secs = x :: l := by
    cases secs with
    | nil => cases hx
    | cons x l => exact ⟨x, l, rfl⟩
  have hx0 : x = (h0, n0) := by rw [hl] at hx; cases hx; rfl
  have hr := readShdrs_ok hs l 1 (by rw [hl]; rfl)
  rw [Nat.one_mul] at hr
  have hall : readAllShdrs f = (rawSects 0 secs, .ok ⟨⟩) := by
    unfold readAllShdrs
    rw [if_neg (fun h => by omega), h2]
    simp only
    have hc : (if f.shnum = 0 then h0.size else f.shnum) - 1 = l.length := by
      have hlen : secs.length = l.length + 1 := by rw [hl]; rfl
      rcases hnum with e | ⟨e1, e2⟩
      · rw [if_neg (by omega)]; omega
      · rw [if_pos e1]; omega
    rw [hc, hr, hl, hx0]
    rfl
  obtain ⟨t, tn, hk, ht0, htc, htp, hts, hnames⟩ := hs.names
  have hview := view_content f.io hs.wf t.offset t.size (by have := hs.size; unfold maxOff; rw [W64_eq]; omega) hts
  have hio : stringsIo f t = .ok (f.io.view t.offset t.size) := by
    unfold stringsIo
    rw [if_neg ht0, if_neg (by omega)]
  obtain ⟨m, e1, e2, e3⟩ := nameSects_ok (strs := f.io.view t.offset t.size) secs 0 (fun _ => none) (by
    intro h n hm
    obtain ⟨hz, rest, hd⟩ := hnames h n hm
    exact C06_string_to_nul_partial _ hview.1 _ (view_notStart f.io hs.wf _ _ _ htp hts) n rest hz (by rw [hview.2]; exact hd))
  refine ⟨m, ?_, e2, fun x j h hj => by rw [e3 x j h hj, Nat.zero_add]⟩
  unfold loadSects
  rw [if_pos (by omega), hall]
  simp only
  have hk0 : f.shstrndx ≠ 0 := by rcases hstr with ⟨e, e', _⟩ | ⟨e, _⟩ <;> omega
  have hki : (if f.shstrndx = 0xffff then h0.link else f.shstrndx) = k := by
    rcases hstr with ⟨e, e', e''⟩ | ⟨e, e'⟩
    · rw [if_neg (by omega), e]
    · rw [if_pos e, e']
  unfold nameAll
  rw [if_neg hk0, rawSects_get, hx]
  simp only [Option.map_some]
  rw [hki, rawSects_get, hk]
  simp only [Option.map_some]
  rw [hio]
  simp only
  rw [e1]

/-- The state after any lookups. -/
inductive SecHistory (f : ElfFile) : SecSt → Prop
  | start : SecHistory f SecSt.start
  | call {st} (name : List Byte) (type : Nat) : SecHistory f st → SecHistory f (getSection f name type st).1

theorem getSection_loaded {f : ElfFile} {l : List Sect} {m : List Byte → Option Nat} {name : List Byte} {type : Nat} : getSection f name type ⟨some l, m⟩ = (⟨some l, m⟩, search l m 4 name type) := rfl

theorem sec_history {f : ElfFile} {secs : List (Shdr × List Byte)} {k : Nat} (hs : HasSections f secs k) {st : SecSt} (hst : SecHistory f st) :
    ∃ m, SectsOf secs m ∧ ∀ name type, getSection f name type st = (⟨some (fullSects 0 secs), m⟩, search (fullSects 0 secs) m 4 name type) := by
  obtain ⟨m, h1, h2⟩ := loadSects_ok hs
  have hne : fullSects 0 secs ≠ [] := by
    obtain ⟨h0, n0, hx, _⟩ := hs.number
    cases secs with
    | nil => cases hx
    | cons x l => exact List.cons_ne_nil _ _
  have e : sectionHeaders f SecSt.start = (⟨some (fullSects 0 secs), m⟩, .ok (fullSects 0 secs)) := by
    unfold sectionHeaders
    show (match loadSects f with
      | (l, m, .ok _) => ((⟨some (if l = [] then [nullSect] else l), m⟩ : SecSt), Res.ok (if l = [] then [nullSect] else l))
      | (l, m, .exc) => (⟨some l, m⟩, .exc)
      | (l, m, .ub) => (⟨some l, m⟩, .ub)
      | (l, m, .abort) => (⟨some l, m⟩, .abort)) = _
    rw [h1]
    simp only
    rw [if_neg hne]
  have first : ∀ name type, getSection f name type SecSt.start = (⟨some (fullSects 0 secs), m⟩, search (fullSects 0 secs) m 4 name type) := by
    intro name type
    unfold getSection
    rw [e]
  have : st = SecSt.start ∨ st = ⟨some (fullSects 0 secs), m⟩ := by
    induction hst with
    | start => exact .inl rfl
    | call name type _ ih =>
      right
      rcases ih with rfl | rfl
      · rw [first]
      · rw [getSection_loaded]
  rcases this with rfl | rfl
  · exact ⟨m, h2, first⟩
  · exact ⟨m, h2, fun _ _ => getSection_loaded⟩

theorem hasDwo_yes (s r : List Byte) : hasDwo s (s ++ r) = .ok true := by
  induction s with
  | nil => rfl
  | cons c s ih => rw [List.cons_append, hasDwo, if_pos rfl, ih]

theorem hasDwo_no : ∀ (s n : List Byte), s.length ≤ n.length → ¬ s <+: n → hasDwo s n = .ok false := by
  intro s
  induction s with
  | nil => intro n _ h; exact (h ⟨n, rfl⟩).elim
  | cons c s ih =>
    intro n hl hp
    cases n with
    | nil => simp at hl
    | cons b n =>
      rw [hasDwo]
      by_cases hc : c = b
      · subst hc
        rw [if_pos rfl]
        exact ih n (by simpa using hl) (fun h => hp (by rw [List.cons_prefix_cons]; exact ⟨rfl, h⟩))
      · rw [if_neg hc]

theorem dwo_yes {n : List Byte} (h : dotDwo <:+ n) : hasDwo dwoSuffix.reverse n.reverse = .ok true := by
  obtain ⟨r, rfl⟩ := h
  rw [List.reverse_append]
  exact hasDwo_yes _ _

theorem dwo_no {n : List Byte} (hl : 4 ≤ n.length) (h : ¬ dotDwo <:+ n) : hasDwo dwoSuffix.reverse n.reverse = .ok false := by
  refine hasDwo_no _ _ (by rw [List.length_reverse, List.length_reverse]; exact hl) ?_
  rw [List.reverse_prefix]
  exact h

theorem last_exists {x : List Byte} : ∀ (l : List (Shdr × List Byte)) (j : Nat) (h : Shdr), l[j]? = some (h, x) → ∃ i h, LastNamed l x i h := by
  intro l
  induction l with
  | nil => intro j h hj; cases hj
  | cons y l ih =>
    intro j h hj
    by_cases hmore : ∃ (i : Nat) (h' : Shdr), l[i]? = some (h', x)
    · obtain ⟨i, h', hi⟩ := hmore
      obtain ⟨i, h', h1, h2⟩ := ih i h' hi
      refine ⟨i + 1, h', by rw [List.getElem?_cons_succ]; exact h1, ?_⟩
      intro q h'' hq
      cases q with
      | zero => omega
      | succ q => rw [List.getElem?_cons_succ]; exact h2 q h'' (by omega)
    · cases j with
      | succ j => rw [List.getElem?_cons_succ] at hj; exact (hmore ⟨j, h, hj⟩).elim
      | zero =>
        refine ⟨0, h, hj, ?_⟩
        intro q h'' hq he
        cases q with
        | zero => omega
        | succ q => rw [List.getElem?_cons_succ] at he; exact hmore ⟨q, h'', he⟩

section
variable {secs : List (Shdr × List Byte)} {m : List Byte → Option Nat} (hm : SectsOf secs m)
include hm

theorem search_found {x : List Byte} {t i : Nat} {h : Shdr} (hx : LastNamed secs x i h) (ht : OfType t h) (fuel : Nat) : search (fullSects 0 secs) m (fuel + 1) x t = .ok ⟨h, i, x⟩ := by
  rw [search, hm.some x i h hx]
  simp only
  rw [fullSects_get, hx.1]
  simp only [Option.map_some, Nat.zero_add]
  rw [if_pos (ht.elim .inr .inl)]

/-- The name of the section in a split object. -/
theorem search_dwo {x : List Byte} {t : Nat} (hx : NotThere secs x t) (hd : ¬ dotDebug <+: x) (fuel : Nat) : search (fullSects 0 secs) m (fuel + 1) x t =
    (do let d ← hasDwo dwoSuffix.reverse x.reverse; if d then firstSect (fullSects 0 secs) else search (fullSects 0 secs) m fuel (x ++ dwoSuffix) t) := by
  have hp : debugPrefix.isPrefixOf x = false := by
    rw [← Bool.not_eq_true, List.isPrefixOf_iff_prefix]
    exact hd
  by_cases hex : ∃ (j : Nat) (h : Shdr), secs[j]? = some (h, x)
  · obtain ⟨j, h, hj⟩ := hex
    obtain ⟨i, h, hl⟩ := last_exists secs j h hj
    have := hx i h hl
    rw [search, hm.some x i h hl]
    simp only
    rw [fullSects_get, hl.1]
    simp only [Option.map_some, Nat.zero_add]
    rw [if_neg (fun e => this (e.elim .inr .inl)), hp]
    rfl
  · rw [search, hm.none x (fun j h e => hex ⟨j, h, e⟩)]
    simp only
    rw [hp]
    rfl

/-- The name of the compressed section. -/
theorem search_zdebug {x : List Byte} {t : Nat} (hx : NotThere secs (dotDebug ++ x) t) (fuel : Nat) : search (fullSects 0 secs) m (fuel + 1) (dotDebug ++ x) t =
    (do let c ← search (fullSects 0 secs) m fuel (dotZdebug ++ x) t
        if c.has then .ok c else do
          let d ← hasDwo dwoSuffix.reverse (dotDebug ++ x).reverse
          if d then firstSect (fullSects 0 secs) else search (fullSects 0 secs) m fuel (dotDebug ++ x ++ dwoSuffix) t) := by
  have hp : debugPrefix.isPrefixOf (dotDebug ++ x) = true := by
    rw [List.isPrefixOf_iff_prefix]
    exact ⟨x, rfl⟩
  have hz : [0x2e#8, 0x7a#8] ++ (dotDebug ++ x).drop 1 = dotZdebug ++ x := rfl
  by_cases hex : ∃ (j : Nat) (h : Shdr), secs[j]? = some (h, dotDebug ++ x)
  · obtain ⟨j, h, hj⟩ := hex
    obtain ⟨i, h, hl⟩ := last_exists secs j h hj
    have := hx i h hl
    rw [search, hm.some _ i h hl]
    simp only
    rw [fullSects_get, hl.1]
    simp only [Option.map_some, Nat.zero_add]
    rw [if_neg (fun e => this (e.elim .inr .inl)), hp, hz]
    rfl
  · rw [search, hm.none _ (fun j h e => hex ⟨j, h, e⟩)]
    simp only
    rw [hp, hz]
    rfl

end

theorem zdebug_dwo {x : List Byte} (h : ¬ dotDwo <:+ dotDebug ++ x) : ¬ dotDwo <:+ dotZdebug ++ x := by
  intro hz
  rcases List.suffix_cons_iff.1 (show dotDwo <:+ 0x2e#8 :: 0x7a#8 :: (dotDebug.tail ++ x) from hz) with e | hz
  · have := congrArg List.length e
    simp [dotDwo, dotDebug] at this
  · rcases List.suffix_cons_iff.1 hz with e | hz
    · have := congrArg List.length e
      simp [dotDwo, dotDebug] at this
    · exact h (List.IsSuffix.trans hz (List.suffix_cons 0x2e#8 (dotDebug.tail ++ x)))

theorem zdebug_not {y : List Byte} : ¬ dotDebug <+: dotZdebug ++ y := by
  rintro ⟨r, e⟩
  have e : some 0x64#8 = some 0x7a#8 := congrArg (fun l => l[1]?) e
  cases e

theorem dwo_not {name : List Byte} (hl : 4 ≤ name.length) (h : ¬ dotDebug <+: name) : ¬ dotDebug <+: name ++ dotDwo := by
  intro hp
  by_cases h7 : 7 ≤ name.length
  · exact h (List.prefix_of_prefix_length_le hp (List.prefix_append _ _) h7)
  · obtain ⟨r, e⟩ := hp
    have e := congrArg (fun l => l[name.length]?) e
    simp only [List.getElem?_append_right (Nat.le_refl _), Nat.sub_self] at e
    rw [List.getElem?_append_left (show name.length < dotDebug.length from by show name.length < 7; omega)] at e
    have : name.length = 4 ∨ name.length = 5 ∨ name.length = 6 := by omega
    rcases this with e' | e' | e' <;> rw [e'] at e <;> exact absurd e (by decide)

section
variable {f : ElfFile} {secs : List (Shdr × List Byte)} {k : Nat} (hs : HasSections f secs k) {st : SecSt} (hst : SecHistory f st) {t : Nat}
include hs

theorem first_null : ∃ h n, secs[0]? = some (h, n) ∧ h.type = 0 ∧ firstSect (fullSects 0 secs) = .ok ⟨h, 0, n⟩ := by
  obtain ⟨h, n, h1, h2⟩ := hs.null
  refine ⟨h, n, h1, h2, ?_⟩
  unfold firstSect
  rw [fullSects_get, h1]
  rfl

include hst

/-- C85. A section is found by its name and type, whatever was looked for before. Of sections with the same name it is the last.
Missing: a section whose type is the one asked for, but which is not the last of its name (`C85_not_type`). -/
theorem C85_found_partial {name : List Byte} {i : Nat} {h : Shdr} (hx : LastNamed secs name i h) (ht : OfType t h) : (getSection f name t st).2 = .ok ⟨h, i, name⟩ := by
  obtain ⟨m, hm, e⟩ := sec_history hs hst
  rw [e]
  exact search_found hm hx ht 3

/-- C85. Failing that, it is the compressed one. -/
theorem C85_compressed {x : List Byte} {i : Nat} {h : Shdr} (h1 : NotThere secs (dotDebug ++ x) t) (hx : LastNamed secs (dotZdebug ++ x) i h) (ht : OfType t h) (hb : HasBytes h) :
    (getSection f (dotDebug ++ x) t st).2 = .ok ⟨h, i, dotZdebug ++ x⟩ := by
  obtain ⟨m, hm, e⟩ := sec_history hs hst
  rw [e]
  show search _ _ _ _ _ = _
  rw [search_zdebug hm h1, search_found hm hx ht 2, Res.bind_ok]
  have : Sect.has ⟨h, i, dotZdebug ++ x⟩ = true := by
    unfold Sect.has
    simp [hb.1, hb.2]
  rw [if_pos this]

/-- C85. Failing that, it is the one of a split object, be it compressed … -/
theorem C85_split_compressed {x : List Byte} {i : Nat} {h : Shdr} (h1 : NotThere secs (dotDebug ++ x) t) (h2 : NotThere secs (dotZdebug ++ x) t) (hn : ¬ dotDwo <:+ dotDebug ++ x)
    (hx : LastNamed secs (dotZdebug ++ x ++ dotDwo) i h) (ht : OfType t h) (hb : HasBytes h) : (getSection f (dotDebug ++ x) t st).2 = .ok ⟨h, i, dotZdebug ++ x ++ dotDwo⟩ := by
  obtain ⟨m, hm, e⟩ := sec_history hs hst
  rw [e]
  show search _ _ _ _ _ = _
  rw [search_zdebug hm h1, search_dwo hm h2 zdebug_not, dwo_no (by simp [dotZdebug]) (zdebug_dwo hn), Res.bind_ok, if_neg (by decide)]
  rw [show dotZdebug ++ x ++ dwoSuffix = dotZdebug ++ x ++ dotDwo from rfl, search_found hm hx ht 1, Res.bind_ok]
  have : Sect.has ⟨h, i, dotZdebug ++ x ++ dotDwo⟩ = true := by
    unfold Sect.has
    simp [hb.1, hb.2]
  rw [if_pos this]

/-- … or not. -/
theorem C85_split {name : List Byte} {i : Nat} {h : Shdr} (hl : 4 ≤ name.length) (hn : ¬ dotDwo <:+ name) (h1 : NotThere secs name t)
    (h2 : ∀ x, name = dotDebug ++ x → NotThere secs (dotZdebug ++ x) t ∧ NotThere secs (dotZdebug ++ x ++ dotDwo) t)
    (hx : LastNamed secs (name ++ dotDwo) i h) (ht : OfType t h) : (getSection f name t st).2 = .ok ⟨h, i, name ++ dotDwo⟩ := by
  obtain ⟨m, hm, e⟩ := sec_history hs hst
  obtain ⟨h0, n0, hx0, ht0, hf0⟩ := first_null hs
  rw [e]
  show search _ _ _ _ _ = _
  by_cases hd : dotDebug <+: name
  · obtain ⟨x, rfl⟩ := hd
    obtain ⟨h2, h3⟩ := h2 x rfl
    rw [search_zdebug hm h1, search_dwo hm h2 zdebug_not, dwo_no (by simp [dotZdebug]) (zdebug_dwo hn), Res.bind_ok, if_neg (by decide)]
    rw [show dotZdebug ++ x ++ dwoSuffix = dotZdebug ++ x ++ dotDwo from rfl, search_dwo hm h3 (by rw [List.append_assoc]; exact zdebug_not), dwo_yes ⟨_, rfl⟩, Res.bind_ok, if_pos rfl, hf0, Res.bind_ok]
    rw [if_neg (by unfold Sect.has; simp [ht0]), dwo_no hl hn, Res.bind_ok, if_neg (by decide)]
    exact search_found hm hx ht 2
  · rw [search_dwo hm h1 hd, dwo_no hl hn, Res.bind_ok, if_neg (by decide)]
    exact search_found hm hx ht 2

/-- C85. If there is none of them, the answer is section 0, which is not a section. -/
theorem C85_none {name : List Byte} (hl : 4 ≤ name.length) (h1 : NotThere secs name t) (h4 : NotThere secs (name ++ dotDwo) t)
    (h2 : ∀ x, name = dotDebug ++ x → NotThere secs (dotZdebug ++ x) t ∧ NotThere secs (dotZdebug ++ x ++ dotDwo) t) : ∃ h n, secs[0]? = some (h, n) ∧ h.type = 0 ∧ (getSection f name t st).2 = .ok ⟨h, 0, n⟩ := by
  obtain ⟨m, hm, e⟩ := sec_history hs hst
  obtain ⟨h0, n0, hx0, ht0, hf0⟩ := first_null hs
  refine ⟨h0, n0, hx0, ht0, ?_⟩
  rw [e]
  show search _ _ _ _ _ = _
  have hz : ∀ fuel x, NotThere secs (dotZdebug ++ x ++ dotDwo) t → search (fullSects 0 secs) m (fuel + 1) (dotZdebug ++ x ++ dotDwo) t = .ok ⟨h0, 0, n0⟩ := by
    intro fuel x h3
    rw [search_dwo hm h3 (by rw [List.append_assoc]; exact zdebug_not), dwo_yes ⟨_, rfl⟩, Res.bind_ok, if_pos rfl, hf0]
  have hh : Sect.has ⟨h0, 0, n0⟩ = false := by unfold Sect.has; simp [ht0]
  by_cases hd : dotDebug <+: name
  · obtain ⟨x, rfl⟩ := hd
    obtain ⟨h2, h3⟩ := h2 x rfl
    have hfirst : search (fullSects 0 secs) m 3 (dotZdebug ++ x) t = .ok ⟨h0, 0, n0⟩ := by
      rw [search_dwo hm h2 zdebug_not]
      by_cases hq : dotDwo <:+ dotZdebug ++ x
      · rw [dwo_yes hq, Res.bind_ok, if_pos rfl, hf0]
      · rw [dwo_no (by simp [dotZdebug]) hq, Res.bind_ok, if_neg (by decide)]
        exact hz 1 x h3
    rw [search_zdebug hm h1, hfirst, Res.bind_ok, hh, if_neg (by decide)]
    by_cases hn : dotDwo <:+ dotDebug ++ x
    · rw [dwo_yes hn, Res.bind_ok, if_pos rfl, hf0]
    · rw [dwo_no hl hn, Res.bind_ok, if_neg (by decide)]
      rw [show dotDebug ++ x ++ dwoSuffix = dotDebug ++ (x ++ dotDwo) from List.append_assoc _ _ _, search_zdebug hm (by rw [← List.append_assoc]; exact h4)]
      have := hz 1 x h3
      rw [List.append_assoc] at this
      rw [this, Res.bind_ok, hh, if_neg (by decide), dwo_yes ⟨dotDebug ++ x, List.append_assoc _ _ _⟩, Res.bind_ok, if_pos rfl, hf0]
  · rw [search_dwo hm h1 hd]
    by_cases hn : dotDwo <:+ name
    · rw [dwo_yes hn, Res.bind_ok, if_pos rfl, hf0]
    · rw [dwo_no hl hn, Res.bind_ok, if_neg (by decide), show name ++ dwoSuffix = name ++ dotDwo from rfl, search_dwo hm h4 (dwo_not hl hd), dwo_yes ⟨_, rfl⟩, Res.bind_ok, if_pos rfl, hf0]

end

/-- None of the names a section may have is there. -/
structure Nowhere (secs : List (Shdr × List Byte)) (name : List Byte) (t : Nat) : Prop where
  long : 4 ≤ name.length
  plain : NotThere secs name t
  split : NotThere secs (name ++ dotDwo) t
  compressed : ∀ x, name = dotDebug ++ x → NotThere secs (dotZdebug ++ x) t ∧ NotThere secs (dotZdebug ++ x ++ dotDwo) t

theorem has_bytes {h : Shdr} {i : Nat} {n : List Byte} : Sect.has ⟨h, i, n⟩ = true ↔ HasBytes h := by
  unfold Sect.has HasBytes
  simp

section
variable {f : ElfFile} {secs : List (Shdr × List Byte)} {k : Nat} (hs : HasSections f secs k) {st : SecSt} (hst : SecHistory f st) {t : Nat}
include hs hst

/-- C85. With an object of debug information: a section the object has itself is used. -/
theorem C85_debug_own {name : List Byte} {i : Nat} {h : Shdr} (hx : LastNamed secs name i h) (ht : OfType t h) (hb : HasBytes h) (debug : Option (ElfFile × SecSt)) :
    getDebugSection f debug name t st = .ok ⟨h, i, name⟩ := by
  unfold getDebugSection
  rw [C85_found_partial hs hst hx ht, Res.bind_ok, if_pos (has_bytes.2 hb)]

/-- C85. One that it does not have, or of which it only has the header, is looked for there. -/
theorem C85_debug_other {name : List Byte} (hno : (∃ i h, LastNamed secs name i h ∧ OfType t h ∧ ¬ HasBytes h) ∨ Nowhere secs name t) {g : ElfFile} {secs' : List (Shdr × List Byte)} {k' : Nat}
    (hg : HasSections g secs' k') {sg : SecSt} (hsg : SecHistory g sg) {i : Nat} {h : Shdr} (hx : LastNamed secs' name i h) (ht : OfType t h) :
    getDebugSection f (some (g, sg)) name t st = .ok ⟨h, i, name⟩ := by
  have own : ∃ s, (getSection f name t st).2 = .ok s ∧ s.has = false := by
    rcases hno with ⟨i, h, h1, h2, h3⟩ | hno
    · refine ⟨_, C85_found_partial hs hst h1 h2, ?_⟩
      rw [← Bool.not_eq_true, has_bytes]
      exact h3
    · obtain ⟨h0, n0, _, h1, h2⟩ := C85_none hs hst hno.long hno.plain hno.split hno.compressed
      refine ⟨_, h2, ?_⟩
      unfold Sect.has
      simp [h1]
  obtain ⟨s, e1, e2⟩ := own
  unfold getDebugSection
  rw [e1, Res.bind_ok, e2, if_neg (by decide)]
  exact C85_found_partial hg hsg hx ht

/-- C85. The section a section is linked to is the one of that number. -/
theorem C85_linked {name n : List Byte} {i : Nat} {h l : Shdr} (hb : HasBytes h) (hl : secs[h.link]? = some (l, n)) :
    getLinkedSection f ⟨h, i, name⟩ (getSection f name t st).1 = .ok ⟨l, h.link, n⟩ := by
  obtain ⟨m, hm, e⟩ := sec_history hs hst
  unfold getLinkedSection
  rw [if_pos (has_bytes.2 hb), e]
  show (match (fullSects 0 secs)[h.link]? with | some t => Res.ok t | none => Res.ub) = _
  rw [fullSects_get, hl]
  simp only [Option.map_some, Nat.zero_add]

/-- A number that is not of a section is not noticed. -/
theorem C85_not_link {name : List Byte} {i : Nat} {h : Shdr} (hb : HasBytes h) (hl : secs.length ≤ h.link) : getLinkedSection f ⟨h, i, name⟩ (getSection f name t st).1 = .ub := by
  obtain ⟨m, hm, e⟩ := sec_history hs hst
  unfold getLinkedSection
  rw [if_pos (has_bytes.2 hb), e]
  show (match (fullSects 0 secs)[h.link]? with | some t => Res.ok t | none => Res.ub) = _
  rw [fullSects_get, List.getElem?_eq_none hl]
  rfl

/-- A section of the name and the type that are asked for is not found if there is a later one of the same name and another type. -/
theorem C85_not_type {name : List Byte} {i j : Nat} {h h' : Shdr} (_ : secs[i]? = some (h, name)) (_ : h.type = t) (h3 : LastNamed secs name j h') (h4 : h'.type ≠ t) (h5 : t ≠ 0)
    (hl : 4 ≤ name.length) (hd : ¬ dotDebug <+: name) (hn : ∀ (i : Nat) (h : Shdr), secs[i]? ≠ some (h, name ++ dotDwo)) : ∃ s, (getSection f name t st).2 = .ok s ∧ s.shdr.type = 0 := by
  have : NotThere secs name t := by
    intro q h'' hq ht
    have : q = j := by
      rcases Nat.lt_trichotomy q j with e | e | e
      · exact (hq.2 j h' e h3.1).elim
      · exact e
      · exact (h3.2 q h'' e hq.1).elim
    subst this
    cases hq.1.symm.trans h3.1
    rcases ht with e | e
    · exact h5 e
    · exact h4 e
  obtain ⟨h0, n0, _, e1, e2⟩ := C85_none hs hst hl this (fun i h hx _ => hn i h hx.1) (fun x hx => (hd ⟨x, hx.symm⟩).elim)
  exact ⟨_, e2, e1⟩

/-- A name that is an end of ".dwo" is compared with what is before it in memory. -/
theorem C85_not_short {name : List Byte} (hx : NotThere secs name t) (hn : name = [] ∨ name = [0x6f#8] ∨ name = [0x77#8, 0x6f#8] ∨ name = [0x64#8, 0x77#8, 0x6f#8]) : (getSection f name t st).2 = .ub := by
  obtain ⟨m, hm, e⟩ := sec_history hs hst
  rw [e]
  show search _ _ _ _ _ = _
  have hd : ¬ dotDebug <+: name := by
    rintro ⟨r, e⟩
    have := congrArg List.length e
    rw [List.length_append, show dotDebug.length = 7 from rfl] at this
    rcases hn with rfl | rfl | rfl | rfl <;> simp at this <;> omega
  rw [search_dwo hm hx hd]
  rcases hn with rfl | rfl | rfl | rfl <;> rfl

end

theorem search_empty {l : List Sect} {s : Sect} (hf : firstSect l = .ok s) (hh : s.has = false) {name : List Byte} {t : Nat} (hl : 4 ≤ name.length) : search l (fun _ => none) 4 name t = .ok s := by
  have plain : ∀ fuel x, ¬ dotDebug <+: x → search l (fun _ => none) (fuel + 1) x t =
      (do let d ← hasDwo dwoSuffix.reverse x.reverse; if d then firstSect l else search l (fun _ => none) fuel (x ++ dwoSuffix) t) := by
    intro fuel x hd
    have hp : debugPrefix.isPrefixOf x = false := by
      rw [← Bool.not_eq_true, List.isPrefixOf_iff_prefix]
      exact hd
    rw [search]
    simp only
    rw [hp]
    rfl
  have debug : ∀ fuel x, search l (fun _ => none) (fuel + 1) (dotDebug ++ x) t =
      (do let c ← search l (fun _ => none) fuel (dotZdebug ++ x) t
          if c.has then .ok c else do
            let d ← hasDwo dwoSuffix.reverse (dotDebug ++ x).reverse
            if d then firstSect l else search l (fun _ => none) fuel (dotDebug ++ x ++ dwoSuffix) t) := by
    intro fuel x
    have hp : debugPrefix.isPrefixOf (dotDebug ++ x) = true := by
      rw [List.isPrefixOf_iff_prefix]
      exact ⟨x, rfl⟩
    rw [search]
    simp only
    rw [hp]
    rfl
  have z1 : ∀ fuel x, search l (fun _ => none) (fuel + 1) (dotZdebug ++ x ++ dotDwo) t = .ok s := by
    intro fuel x
    rw [plain _ _ (by rw [List.append_assoc]; exact zdebug_not), dwo_yes ⟨_, rfl⟩, Res.bind_ok, if_pos rfl, hf]
  have z2 : ∀ fuel x, search l (fun _ => none) (fuel + 2) (dotZdebug ++ x) t = .ok s := by
    intro fuel x
    rw [plain _ _ zdebug_not]
    by_cases hq : dotDwo <:+ dotZdebug ++ x
    · rw [dwo_yes hq, Res.bind_ok, if_pos rfl, hf]
    · rw [dwo_no (by simp [dotZdebug]) hq, Res.bind_ok, if_neg (by decide)]
      exact z1 fuel x
  by_cases hd : dotDebug <+: name
  · obtain ⟨x, rfl⟩ := hd
    rw [debug, z2, Res.bind_ok, hh, if_neg (by decide)]
    by_cases hn : dotDwo <:+ dotDebug ++ x
    · rw [dwo_yes hn, Res.bind_ok, if_pos rfl, hf]
    · rw [dwo_no hl hn, Res.bind_ok, if_neg (by decide), show dotDebug ++ x ++ dwoSuffix = dotDebug ++ (x ++ dotDwo) from List.append_assoc _ _ _, debug]
      rw [z2, Res.bind_ok, hh, if_neg (by decide), dwo_yes ⟨dotDebug ++ x, List.append_assoc _ _ _⟩, Res.bind_ok, if_pos rfl, hf]
  · rw [plain _ _ hd]
    by_cases hn : dotDwo <:+ name
    · rw [dwo_yes hn, Res.bind_ok, if_pos rfl, hf]
    · rw [dwo_no hl hn, Res.bind_ok, if_neg (by decide), show name ++ dwoSuffix = name ++ dotDwo from rfl, plain _ _ (dwo_not hl hd), dwo_yes ⟨_, rfl⟩, Res.bind_ok, if_pos rfl, hf]

/-- An object without section headers has only section 0. -/
theorem C85_stripped {f : ElfFile} (h : f.io.size ≤ f.shoff) {st : SecSt} (hst : SecHistory f st) {name : List Byte} {t : Nat} (hl : 4 ≤ name.length) :
    ∃ s, (getSection f name t st).2 = .ok s ∧ s.has = false := by
  have hsec : sectionHeaders f SecSt.start = (⟨some [nullSect], fun _ => none⟩, .ok [nullSect]) := by
    unfold sectionHeaders
    show (match loadSects f with
      | (l, m, .ok _) => ((⟨some (if l = [] then [nullSect] else l), m⟩ : SecSt), Res.ok (if l = [] then [nullSect] else l))
      | (l, m, .exc) => (⟨some l, m⟩, .exc)
      | (l, m, .ub) => (⟨some l, m⟩, .ub)
      | (l, m, .abort) => (⟨some l, m⟩, .abort)) = _
    unfold loadSects
    rw [if_neg (by omega)]
    rfl
  have first : ∀ name t, getSection f name t SecSt.start = (⟨some [nullSect], fun _ => none⟩, search [nullSect] (fun _ => none) 4 name t) := by
    intro name t
    unfold getSection
    rw [hsec]
  have : st = SecSt.start ∨ st = ⟨some [nullSect], fun _ => none⟩ := by
    induction hst with
    | start => exact .inl rfl
    | call name type _ ih =>
      right
      rcases ih with rfl | rfl
      · rw [first]
      · rw [getSection_loaded]
  refine ⟨nullSect, ?_, rfl⟩
  rcases this with rfl | rfl
  · rw [first]; exact search_empty rfl rfl hl
  · rw [getSection_loaded]; exact search_empty rfl rfl hl

/-- If the headers cannot be read, the first search throws, and the next is undefined. -/
theorem C85_not_again {f : ElfFile} (hw : f.io.WF) (h1 : f.shoff < f.io.size) (h2 : f.io.size < f.shoff + 64) (h3 : f.io.size + 64 < 2 ^ 64) (h4 : f.shnum ≠ 0) {name other : List Byte} {t t' : Nat}
    (hl : 4 ≤ name.length) (hd : ¬ dotDebug <+: name) : (getSection f other t' SecSt.start).2 = .exc ∧ (getSection f name t (getSection f other t' SecSt.start).1).2 = .ub := by
  have hr : readShdr f f.shoff = .exc := by
    obtain ⟨hlen, _⟩ := content_length f.io hw
    have : f.io.readObj f.shoff 64 = .exc := by
      unfold Rdr.readObj
      rw [if_neg (by decide), read_content f.io hw _ 64 (by omega) (by rw [W64_eq]; omega), Res.bind_ok, if_pos]
      rw [List.length_take, List.length_drop, hlen]
      omega
    unfold readShdr
    rw [this]
    rfl
  have hload : loadSects f = ([], fun _ => none, .exc) := by
    unfold loadSects readAllShdrs
    rw [if_pos h1, if_neg (fun e => h4 e.1), hr]
  have hsec : sectionHeaders f SecSt.start = (⟨some [], fun _ => none⟩, .exc) := by
    unfold sectionHeaders
    show (match loadSects f with
      | (l, m, .ok _) => ((⟨some (if l = [] then [nullSect] else l), m⟩ : SecSt), Res.ok (if l = [] then [nullSect] else l))
      | (l, m, .exc) => (⟨some l, m⟩, .exc)
      | (l, m, .ub) => (⟨some l, m⟩, .ub)
      | (l, m, .abort) => (⟨some l, m⟩, .abort)) = _
    rw [hload]
  have hget : getSection f other t' SecSt.start = (⟨some [], fun _ => none⟩, .exc) := by
    unfold getSection
    rw [hsec]
  rw [hget]
  refine ⟨rfl, ?_⟩
  have hm : SectsOf [] (fun _ => none) := ⟨fun _ _ => rfl, fun x j h hx => by cases hx.1⟩
  have hno : ∀ x, NotThere [] x t := fun x i h hx => by cases hx.1
  show search (fullSects 0 []) (fun _ => none) 4 name t = _
  rw [search_dwo hm (hno _) hd]
  by_cases hn : dotDwo <:+ name
  · rw [dwo_yes hn]; rfl
  · rw [dwo_no hl hn, Res.bind_ok, if_neg (by decide), show name ++ dwoSuffix = name ++ dotDwo from rfl, search_dwo hm (hno _) (dwo_not hl hd), dwo_yes ⟨_, rfl⟩]
    rfl

/-! ### A file -/

/-- Its names: ".shstrtab", ".debug_line.dwo", ".zdebug_info", ".group". -/
def secStrings : List Byte := [0#8, 0x2e#8, 0x73#8, 0x68#8, 0x73#8, 0x74#8, 0x72#8, 0x74#8, 0x61#8, 0x62#8, 0#8, 0x2e#8, 0x64#8, 0x65#8, 0x62#8, 0x75#8, 0x67#8, 0x5f#8, 0x6c#8, 0x69#8, 0x6e#8, 0x65#8, 0x2e#8, 0x64#8, 0x77#8, 0x6f#8, 0#8,
  0x2e#8, 0x7a#8, 0x64#8, 0x65#8, 0x62#8, 0x75#8, 0x67#8, 0x5f#8, 0x69#8, 0x6e#8, 0x66#8, 0x6f#8, 0#8, 0x2e#8, 0x67#8, 0x72#8, 0x6f#8, 0x75#8, 0x70#8, 0#8]

def secName (off : Nat) : List Byte := (secStrings.drop off).takeWhile (· ≠ 0#8)

/-- Section 0, the names, the lines of a split object, compressed entries, two groups of which one is of another type. -/
def secHdrs : List Shdr := [⟨0, 0, 0, 0, 0, 0, 0, 0, 0, 0⟩, ⟨1, 3, 0, 0, 1, 47, 0, 0, 1, 0⟩, ⟨11, 1, 0, 0, 48, 4, 1, 0, 1, 0⟩, ⟨27, 1, 0, 0, 48, 4, 0, 0, 1, 0⟩, ⟨40, 17, 0, 0, 48, 4, 0, 0, 1, 0⟩, ⟨40, 1, 0, 0, 48, 4, 0, 0, 1, 0⟩]

def secSample : List (Shdr × List Byte) := secHdrs.map (fun h => (h, secName h.name))

def secFile : ElfFile := ⟨.file ([0#8] ++ secStrings ++ [1#8, 2#8, 3#8, 4#8] ++ (secHdrs.map shdrBytes).flatten), 52, 6, 64, 1, fun _ => .exc⟩

theorem secFile_ok : HasSections secFile secSample 1 := by
  refine ⟨by unfold secFile Rdr.WF; decide +kernel, by decide +kernel, by decide, ?_, ⟨_, _, rfl, rfl⟩, ⟨_, _, rfl, .inl rfl⟩, ⟨_, _, rfl, .inl ⟨rfl, by decide, by decide⟩⟩, ⟨_, _, rfl, by decide, by decide, by decide, by decide +kernel, ?_⟩⟩
  · intro i h n hi
    have hlt : i < 6 := by
      have := (List.getElem?_eq_some_iff.1 hi).1
      simpa [secSample, secHdrs] using this
    match i, hlt, hi with
    | 0, _, hi | 1, _, hi | 2, _, hi | 3, _, hi | 4, _, hi | 5, _, hi => cases hi; exact ⟨by unfold ShdrFits; decide, _, rfl⟩
  · intro h n hm
    simp only [secSample, secHdrs, List.map_cons, List.map_nil, List.mem_cons, List.not_mem_nil, or_false, Prod.mk.injEq] at hm
    rcases hm with ⟨rfl, rfl⟩ | ⟨rfl, rfl⟩ | ⟨rfl, rfl⟩ | ⟨rfl, rfl⟩ | ⟨rfl, rfl⟩ | ⟨rfl, rfl⟩ <;> exact ⟨by decide +kernel, _, rfl⟩

/-- Of a list whose names can be compared, the last one. -/
theorem lastNamed_of {secs : List (Shdr × List Byte)} {name : List Byte} {i : Nat} {h : Shdr} (h1 : secs[i]? = some (h, name)) (h2 : ∀ x ∈ secs.drop (i + 1), x.2 ≠ name) : LastNamed secs name i h := by
  refine ⟨h1, ?_⟩
  intro j h' hj e
  have : (secs.drop (i + 1))[j - (i + 1)]? = some (h', name) := by
    rw [List.getElem?_drop, show i + 1 + (j - (i + 1)) = j by omega, e]
  exact h2 _ (List.mem_of_getElem? this) rfl

theorem notThere_of {secs : List (Shdr × List Byte)} {name : List Byte} {t : Nat} (h : ∀ x ∈ secs, x.2 ≠ name) : NotThere secs name t :=
  fun _ _ hx _ => h _ (List.mem_of_getElem? hx.1) rfl

/-- ".shstrtab" is found, the entries are found compressed, the lines in a split object, and nothing is found for ".text". -/
theorem C85_example {st : SecSt} (hst : SecHistory secFile st) :
    (getSection secFile (secName 1) 3 st).2 = .ok ⟨⟨1, 3, 0, 0, 1, 47, 0, 0, 1, 0⟩, 1, secName 1⟩ ∧
    (getSection secFile (dotDebug ++ [0x69#8, 0x6e#8, 0x66#8, 0x6f#8]) 1 st).2 = .ok ⟨⟨27, 1, 0, 0, 48, 4, 0, 0, 1, 0⟩, 3, dotZdebug ++ [0x69#8, 0x6e#8, 0x66#8, 0x6f#8]⟩ ∧
    (getSection secFile (dotDebug ++ [0x6c#8, 0x69#8, 0x6e#8, 0x65#8]) 0 st).2 = .ok ⟨⟨11, 1, 0, 0, 48, 4, 1, 0, 1, 0⟩, 2, dotDebug ++ [0x6c#8, 0x69#8, 0x6e#8, 0x65#8] ++ dotDwo⟩ ∧
    ∃ s, (getSection secFile [0x2e#8, 0x74#8, 0x65#8, 0x78#8, 0x74#8] 1 st).2 = .ok s ∧ s.shdr.type = 0 := by
  refine ⟨?_, ?_, ?_, ?_⟩
  · exact C85_found_partial secFile_ok hst (i := 1) (lastNamed_of rfl (by decide +kernel)) (.inr rfl)
  · exact C85_compressed secFile_ok hst (i := 3) (notThere_of (by decide +kernel)) (lastNamed_of rfl (by decide +kernel)) (.inr rfl) (by unfold HasBytes; decide)
  · exact C85_split secFile_ok hst (i := 2) (by decide) (by decide +kernel) (notThere_of (by decide +kernel))
      (fun x hx => by
        have : x = [0x6c#8, 0x69#8, 0x6e#8, 0x65#8] := (List.append_cancel_left hx).symm
        subst this
        exact ⟨notThere_of (by decide +kernel), notThere_of (by decide +kernel)⟩)
      (lastNamed_of rfl (by decide +kernel)) (.inl rfl)
  · obtain ⟨h, n, _, h1, h2⟩ := C85_none secFile_ok hst (t := 1) (name := [0x2e#8, 0x74#8, 0x65#8, 0x78#8, 0x74#8]) (by decide) (notThere_of (by decide +kernel)) (notThere_of (by decide +kernel))
      (fun x hx => by have := congrArg List.length hx; rw [List.length_append, show dotDebug.length = 7 from rfl] at this; simp at this; omega)
    exact ⟨_, h2, h1⟩

/-- The first group, of type 17, is not found. -/
theorem C85_not_type_example {st : SecSt} (hst : SecHistory secFile st) : ∃ s, (getSection secFile (secName 40) 17 st).2 = .ok s ∧ s.shdr.type = 0 :=
  C85_not_type secFile_ok hst (i := 4) (j := 5) (h := ⟨40, 17, 0, 0, 48, 4, 0, 0, 1, 0⟩) (h' := ⟨40, 1, 0, 0, 48, 4, 0, 0, 1, 0⟩) rfl rfl (lastNamed_of rfl (by decide +kernel)) (by decide) (by decide) (by decide +kernel) (by decide +kernel)
    (fun i h e => absurd (List.mem_of_getElem? e) (by
      intro hm
      have : ∀ x ∈ secSample, x.2 ≠ secName 40 ++ dotDwo := by decide +kernel
      exact this _ hm rfl))

/-- In a file that ends within the first header. -/
theorem C85_not_again_example : (getSection ⟨.file (List.replicate 100 0#8), 64, 3, 64, 1, fun _ => .exc⟩ (secName 1) 3 SecSt.start).2 = .exc ∧
    (getSection ⟨.file (List.replicate 100 0#8), 64, 3, 64, 1, fun _ => .exc⟩ (secName 1) 3 (getSection ⟨.file (List.replicate 100 0#8), 64, 3, 64, 1, fun _ => .exc⟩ (secName 1) 3 SecSt.start).1).2 = .ub :=
  C85_not_again (by unfold Rdr.WF; decide +kernel) (by decide) (by decide) (by decide) (by decide) (by decide +kernel) (by decide +kernel)

/-- The lines with the names as linked section; and with the object that has none of its own. -/
theorem C85_debug_example {st : SecSt} (hst : SecHistory secFile st) : getDebugSection ⟨.file [], 0, 0, 0, 0, fun _ => .exc⟩ (some (secFile, st)) (secName 1) 3 SecSt.start = .ok ⟨⟨1, 3, 0, 0, 1, 47, 0, 0, 1, 0⟩, 1, secName 1⟩ := by
  obtain ⟨s, h1, h2⟩ := C85_stripped (f := ⟨.file [], 0, 0, 0, 0, fun _ => .exc⟩) (Nat.le_refl 0) SecHistory.start (name := secName 1) (t := 3) (by decide +kernel)
  unfold getDebugSection
  rw [h1, Res.bind_ok, h2, if_neg (by decide)]
  exact (C85_example hst).1

end Pstack.Props
