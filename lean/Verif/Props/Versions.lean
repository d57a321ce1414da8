import Verif.Spec.Versions
import Verif.Props.Sections
/-
Property theorems C93: versions of symbols (Spec/Versions.lean).
-/
namespace Pstack.Props
open Pstack.Reader Pstack.Spec Pstack.Elf Pstack.Sections Pstack.Dwarf Pstack.Versions

theorem V.bind_ok {α β : Type} {x : V α} {f : α → V β} {st st' : VerSt} {a : α} (h : x st = (st', .ok a)) : V.bind x f st = f a st' := by
  unfold V.bind
  rw [h]

/-! ### Reading -/

theorem section_io {f : ElfFile} (hw : f.io.WF) (hsz : f.io.size + 2 ^ 16 < 2 ^ 64) {h : Shdr} {bs : List Byte} (hs : SectionBytes f h bs) :
    ∃ r, stringsIo f h = .ok r ∧ r.WF ∧ r.content = bs ∧ r.size + 2 ^ 16 < 2 ^ 64 ∧ ∀ off, ¬AtFileStart r off := by
  obtain ⟨h1, h2, h3, h4, h5⟩ := hs
  obtain ⟨v1, v2⟩ := view_content f.io hw h.offset h.size (by unfold maxOff; rw [W64_eq]; omega) h4
  refine ⟨f.io.view h.offset h.size, ?_, v1, by rw [v2, h5], ?_, fun off => view_notStart f.io hw _ _ _ h3 h4⟩
  · unfold stringsIo
    rw [if_neg h1.1, if_neg (by omega)]
  · have e := (content_length _ v1).1
    have := (content_length f.io hw).1
    rw [v2, List.length_take, List.length_drop] at e
    omega

/-- A structure of `n` bytes in a section. -/
theorem struct_read {r : Rdr} (hw : r.WF) (hsz : r.size + 2 ^ 16 < 2 ^ 64) {off n : Nat} {bs rest : List Byte} (hn : bs.length = n) (h0 : 0 < n) (h1 : n < 2 ^ 16) (hd : r.content.drop off = bs ++ rest) :
    off + n ≤ r.size ∧ r.readObj off n = .ok bs := by
  have hl := (content_length r hw).1
  have hlen := congrArg List.length hd
  rw [List.length_drop, List.length_append, hl] at hlen
  refine ⟨by omega, ?_⟩
  unfold Rdr.readObj
  rw [if_neg (by omega), read_content r hw off n (by omega) (by rw [W64_eq]; omega), hd, List.take_left' hn]
  show (if bs.length ≠ n then Res.exc else Res.ok bs) = _
  rw [if_neg (by omega)]

theorem text_read {r : Rdr} (hw : r.WF) (hns : ∀ off, ¬AtFileStart r off) {o : Nat} {s : List Byte} (h : TextAt r.content o s) : r.readString o = .ok s := by
  obtain ⟨_, h2, rest, h3⟩ := h
  exact C06_string_to_nul_partial r hw o (hns o) s rest h2 h3

section
variable {sec strs : Rdr} (hw : sec.WF) (hsz : sec.size + 2 ^ 16 < 2 ^ 64) (hw' : strs.WF) (hns : ∀ off, ¬AtFileStart strs off)
include hw hsz hw' hns

theorem aux_loop {off : Nat} {l : List (Nat × List Byte)} (h : NeedAux sec.content strs.content off l) : ∀ m, auxLoop sec strs l.length (off % W64) m = .ok (l.foldl (fun m x => put m x.1 x.2) m, l.map (·.1)) := by
  induction h with
  | nil => intro m; rfl
  | @cons off hash flags i o next name l rest hd h1 h2 h3 _ ih =>
    intro m
    have hd' : sec.content.drop off = (leBytes 4 hash ++ (leBytes 2 flags ++ (leBytes 2 i ++ (leBytes 4 o ++ leBytes 4 next)))) ++ rest := by rw [hd]; simp only [List.append_assoc]
    obtain ⟨k1, k2⟩ := struct_read hw hsz (n := 16) (by simp [leBytes_length]) (by decide) (by decide) hd'
    have f1 : field (leBytes 4 hash ++ (leBytes 2 flags ++ (leBytes 2 i ++ (leBytes 4 o ++ leBytes 4 next)))) 6 2 = i := by
      rw [← List.append_assoc]; exact field_at _ _ 6 2 i (by simp [leBytes_length]) h1
    have f2 : field (leBytes 4 hash ++ (leBytes 2 flags ++ (leBytes 2 i ++ (leBytes 4 o ++ leBytes 4 next)))) 8 4 = o := by
      rw [← List.append_assoc, ← List.append_assoc]; exact field_at _ _ 8 4 o (by simp [leBytes_length]) h3.1
    have f3 : field (leBytes 4 hash ++ (leBytes 2 flags ++ (leBytes 2 i ++ (leBytes 4 o ++ leBytes 4 next)))) 12 4 = next := by
      rw [← List.append_assoc, ← List.append_assoc, ← List.append_assoc]
      have := field_at (leBytes 4 hash ++ leBytes 2 flags ++ leBytes 2 i ++ leBytes 4 o) [] 12 4 next (by simp [leBytes_length]) h2
      simpa using this
    have ho : off % W64 = off := Nat.mod_eq_of_lt (by rw [W64_eq]; omega)
    rw [List.length_cons, auxLoop, ho, k2, Res.bind_ok, f1, f2, f3, text_read hw' hns h3, Res.bind_ok, ih, Res.bind_ok]
    rfl

/-- What the files add. -/
def addNeed (v : Versioning) (n : FileNeeds) : Versioning :=
  { v with versions := n.vers.foldl (fun m x => put m x.1 x.2) v.versions, files := put v.files n.file ((v.files n.file).getD [] ++ n.vers.map (·.1)) }

theorem need_loop {off : Nat} {l : List FileNeeds} (h : NeedsAt sec.content strs.content off l) : ∀ v, needLoop sec strs l.length (off % W64) v = .ok (l.foldl addNeed v) := by
  induction h with
  | nil => intro v; rfl
  | @cons off version o aux next n l rest hd h1 h2 h3 h4 h5 _ ih =>
    intro v
    have hd' : sec.content.drop off = (leBytes 2 version ++ (leBytes 2 n.vers.length ++ (leBytes 4 o ++ (leBytes 4 aux ++ leBytes 4 next)))) ++ rest := by rw [hd]; simp only [List.append_assoc]
    obtain ⟨k1, k2⟩ := struct_read hw hsz (n := 16) (by simp [leBytes_length]) (by decide) (by decide) hd'
    have f1 : field (leBytes 2 version ++ (leBytes 2 n.vers.length ++ (leBytes 4 o ++ (leBytes 4 aux ++ leBytes 4 next)))) 2 2 = n.vers.length := field_at _ _ 2 2 _ (by simp [leBytes_length]) h1
    have f2 : field (leBytes 2 version ++ (leBytes 2 n.vers.length ++ (leBytes 4 o ++ (leBytes 4 aux ++ leBytes 4 next)))) 4 4 = o := by
      rw [← List.append_assoc]; exact field_at _ _ 4 4 o (by simp [leBytes_length]) h4.1
    have f3 : field (leBytes 2 version ++ (leBytes 2 n.vers.length ++ (leBytes 4 o ++ (leBytes 4 aux ++ leBytes 4 next)))) 8 4 = aux := by
      rw [← List.append_assoc, ← List.append_assoc]; exact field_at _ _ 8 4 aux (by simp [leBytes_length]) h2
    have f4 : field (leBytes 2 version ++ (leBytes 2 n.vers.length ++ (leBytes 4 o ++ (leBytes 4 aux ++ leBytes 4 next)))) 12 4 = next := by
      rw [← List.append_assoc, ← List.append_assoc, ← List.append_assoc]
      have := field_at (leBytes 2 version ++ leBytes 2 n.vers.length ++ leBytes 4 o ++ leBytes 4 aux) [] 12 4 next (by simp [leBytes_length]) h3
      simpa using this
    have ho : off % W64 = off := Nat.mod_eq_of_lt (by rw [W64_eq]; omega)
    rw [List.length_cons, needLoop, ho, k2, Res.bind_ok, f1, f2, f3, f4, text_read hw' hns h4, Res.bind_ok, aux_loop hw hsz hw' hns h5, Res.bind_ok, ih]
    rfl

/-- What the definitions add. -/
def addDef (v : Versioning) (d : VersionDef) : Versioning :=
  { v with versions := put v.versions d.index d.name, predecessors := match d.follows with | some p => put v.predecessors d.index p | none => v.predecessors }

theorem name_aux {off next : Nat} {name : List Byte} (h : NameAux sec.content strs.content off next name) :
    off % W64 = off ∧ ∃ aux, sec.readObj off 8 = .ok aux ∧ strs.readString (field aux 0 4) = .ok name ∧ field aux 4 4 = next := by
  obtain ⟨o, rest, hd, h1, h2⟩ := h
  have hd' : sec.content.drop off = (leBytes 4 o ++ leBytes 4 next) ++ rest := by rw [hd]; simp only [List.append_assoc]
  obtain ⟨k1, k2⟩ := struct_read hw hsz (n := 8) (by simp [leBytes_length]) (by decide) (by decide) hd'
  refine ⟨Nat.mod_eq_of_lt (by rw [W64_eq]; omega), _, k2, ?_, ?_⟩
  · have := field_at [] (leBytes 4 next) 0 4 o rfl h2.1
    rw [List.nil_append] at this
    rw [this]
    exact text_read hw' hns h2
  · have := field_at (leBytes 4 o) [] 4 4 next (by simp [leBytes_length]) h1
    simpa using this

theorem def_loop {off : Nat} {l : List VersionDef} (h : DefsAt sec.content strs.content off l) : ∀ v, defLoop sec strs l.length (off % W64) v = .ok (l.foldl addDef v) := by
  induction h with
  | nil => intro v; rfl
  | @cons off version flags count hash aux next d l rest hd h1 h2 h3 h4 _ ih =>
    intro v
    have hc : count < 2 ^ 16 := by cases h4 with | one => decide | more _ _ _ _ h => exact h
    generalize hb : leBytes 2 version ++ (leBytes 2 flags ++ (leBytes 2 d.index ++ (leBytes 2 count ++ (leBytes 4 hash ++ (leBytes 4 aux ++ leBytes 4 next))))) = bs
    have hd' : sec.content.drop off = bs ++ rest := by rw [hd, ← hb]; simp only [List.append_assoc]
    obtain ⟨k1, k2⟩ := struct_read hw hsz (n := 20) (by rw [← hb]; simp [leBytes_length]) (by decide) (by decide) hd'
    have f1 : field bs 4 2 = d.index := by
      rw [← hb, ← List.append_assoc]; exact field_at _ _ 4 2 _ (by simp [leBytes_length]) h1
    have f2 : field bs 6 2 = count := by
      rw [← hb, ← List.append_assoc, ← List.append_assoc]; exact field_at _ _ 6 2 _ (by simp [leBytes_length]) hc
    have f3 : field bs 12 4 = aux := by
      rw [← hb, ← List.append_assoc, ← List.append_assoc, ← List.append_assoc, ← List.append_assoc]; exact field_at _ _ 12 4 _ (by simp [leBytes_length]) h2
    have f4 : field bs 16 4 = next := by
      rw [← hb, ← List.append_assoc, ← List.append_assoc, ← List.append_assoc, ← List.append_assoc, ← List.append_assoc]
      have := field_at (leBytes 2 version ++ leBytes 2 flags ++ leBytes 2 d.index ++ leBytes 2 count ++ leBytes 4 hash ++ leBytes 4 aux) [] 16 4 next (by simp [leBytes_length]) h3
      simpa using this
    have ho : off % W64 = off := Nat.mod_eq_of_lt (by rw [W64_eq]; omega)
    rw [List.length_cons, defLoop, ho, k2, Res.bind_ok, f1, f2, f3, f4]
    simp only
    cases h4 with
    | one a1 a2 =>
      obtain ⟨e1, x, e2, e3, e4⟩ := name_aux hw hsz hw' hns a1
      rw [if_pos (by decide), e1, e2, Res.bind_ok, e3, Res.bind_ok, Res.bind_ok]
      simp only
      rw [if_neg (by decide), Res.bind_ok, ih]
      unfold addDef
      rw [List.foldl_cons, a2]
    | more a1 a2 a3 a4 a5 =>
      obtain ⟨e1, x, e2, e3, e4⟩ := name_aux hw hsz hw' hns a1
      obtain ⟨g1, y, g2, g3, g4⟩ := name_aux hw hsz hw' hns a2
      rw [if_pos (by omega), e1, e2, Res.bind_ok, e3, Res.bind_ok, Res.bind_ok, e4, g1]
      simp only
      rw [if_pos a4, g2, Res.bind_ok, g3, Res.bind_ok, Res.bind_ok, ih]
      unfold addDef
      rw [List.foldl_cons, a3]

end

/-! ### Entries of .dynamic -/

theorem dyns_read {r : Rdr} : ∀ (n : Nat) (w : ArrWin) (i : Nat) (es : List (List Byte)), iterate r.read 0 16 (1024 / 16) n w i = .ok es →
    readDyns r n w i = (.ok (), es.map (fun bs => (field bs 0 8, field bs 8 8)))
  | 0, _, _, _, h => by cases h; rfl
  | n + 1, w, i, es, h => by
    rw [iterate] at h
    rw [readDyns]
    generalize w.getitem r.read 0 16 (1024 / 16) i = q at h ⊢
    obtain ⟨w', q⟩ := q
    obtain ⟨x, h1, h⟩ := Res.bind_eq_ok.1 h
    obtain ⟨xs, h2, h⟩ := Res.bind_eq_ok.1 h
    cases h
    subst h1
    simp only
    rw [dyns_read n w' (i + 1) xs h2]
    rfl

theorem dyns_load {f : ElfFile} (hw : f.io.WF) (hsz : f.io.size + 2 ^ 16 < 2 ^ 64) {h : Shdr} {i : Nat} {name : List Byte} {dyns : List (Nat × Nat)} (hd : ∀ d ∈ dyns, d.1 < 2 ^ 64 ∧ d.2 < 2 ^ 64)
    (hs : SectionBytes f h (dyns.map (fun d => leBytes 8 d.1 ++ leBytes 8 d.2)).flatten) : loadDyns f ⟨h, i, name⟩ = (.ok (), dyns) := by
  obtain ⟨r, h1, h2, h3, h4, _⟩ := section_io hw hsz hs
  unfold loadDyns
  rw [if_pos (has_bytes.2 hs.1), h1]
  simp only
  have hl : ∀ e ∈ dyns.map (fun d => leBytes 8 d.1 ++ leBytes 8 d.2), e.length = 16 := by
    intro e he
    obtain ⟨d, _, rfl⟩ := List.mem_map.1 he
    simp [leBytes_length]
  have ha := readerArray_rdr r h2 16 (1024 / 16) (by decide) (by decide) (by rw [W64_eq]; omega) _ h3 hl
  unfold readerArray at ha
  by_cases hm : r.size ≠ maxOff ∧ r.size % 16 ≠ 0
  · rw [if_pos hm] at ha; cases ha
  · rw [if_neg hm] at ha ⊢
    rw [Nat.sub_zero, Nat.add_mod_right, Nat.mod_eq_of_lt (by rw [W64_eq]; omega)] at ha
    rw [dyns_read _ _ _ _ ha, List.map_map]
    congr 1
    conv => rhs; rw [← List.map_id dyns]
    apply List.map_congr_left
    intro d hm
    obtain ⟨d1, d2⟩ := hd d hm
    have e1 := field_at [] (leBytes 8 d.2) 0 8 d.1 rfl d1
    have e2 := field_at (leBytes 8 d.1) [] 8 8 d.2 (by simp [leBytes_length]) d2
    rw [List.nil_append] at e1
    rw [List.append_nil] at e2
    show (field (leBytes 8 d.1 ++ leBytes 8 d.2) 0 8, field (leBytes 8 d.1 ++ leBytes 8 d.2) 8 8) = d
    rw [e1, e2]

/-! ### What is kept -/

/-- What an object keeps after any calls. -/
inductive VerHistory (f : ElfFile) : VerSt → Prop
  | start : VerHistory f VerSt.start
  | sect {st} (name : List Byte) (type : Nat) : VerHistory f st → VerHistory f (sectionV f name type st).1
  | dyn {st} : VerHistory f st → VerHistory f (dynamic f st).1
  | all {st} : VerHistory f st → VerHistory f (symbolVersions f st).1
  | version {st} (idx : Nat) : VerHistory f st → VerHistory f (symbolVersion f idx st).1
  | symbol {st} (idx : Nat) : VerHistory f st → VerHistory f (versionIdxForSymbol f idx st).1

/-- The sections and the entries of .dynamic are those of the file, if they are there. -/
structure VerKept (f : ElfFile) (secs : List (Shdr × List Byte)) (st : VerSt) : Prop where
  sec : SecHistory f st.sec
  dyn : ∀ dyns, HasDynamic f secs dyns → st.dyn = none ∨ st.dyn = some dyns

section
variable {f : ElfFile} {secs : List (Shdr × List Byte)} {k : Nat} (hs : HasSections f secs k)
include hs

theorem sect_found {st : VerSt} (hst : VerKept f secs st) {name : List Byte} {t : Nat} {h : Shdr} {bs : List Byte} (hx : HasSection f secs name t h bs) :
    ∃ st' i, sectionV f name t st = (st', .ok ⟨h, i, name⟩) ∧ VerKept f secs st' ∧ st'.vers = st.vers ∧ st'.dyn = st.dyn ∧
      ∀ g n j, secs[h.link]? = some (g, n) → linkedV f ⟨h, j, name⟩ st' = (st', .ok ⟨g, h.link, n⟩) := by
  obtain ⟨i, h1, h2, h3⟩ := hx
  have e := C85_found_partial hs hst.sec h1 (t := t) (.inr h2)
  refine ⟨{ st with sec := (getSection f name t st.sec).1 }, i, ?_, ⟨SecHistory.call name t hst.sec, hst.dyn⟩, rfl, rfl, ?_⟩
  · unfold sectionV
    simp only
    rw [e]
  · intro g n j hg
    unfold linkedV
    simp only
    rw [C85_linked hs hst.sec (t := t) h3.1 hg]

theorem sect_lacks {st : VerSt} (hst : VerKept f secs st) {name : List Byte} {t : Nat} (hl : 4 ≤ name.length) (hd : ¬ dotDebug <+: name) (hx : LacksSection secs name t) :
    ∃ st' s, sectionV f name t st = (st', .ok s) ∧ s.has = false ∧ VerKept f secs st' ∧ st'.vers = st.vers := by
  obtain ⟨h, n, h1, h2, e⟩ := C85_none hs hst.sec hl hx.1 hx.2 (fun x e => (hd ⟨x, e.symm⟩).elim)
  refine ⟨{ st with sec := (getSection f name t st.sec).1 }, ⟨h, 0, n⟩, ?_, ?_, ⟨SecHistory.call name t hst.sec, hst.dyn⟩, rfl⟩
  · unfold sectionV
    simp only
    rw [e]
  · rw [← Bool.not_eq_true, has_bytes]
    intro hb
    exact hb.1 h2

theorem dyn_unique {dyns dyns' : List (Nat × Nat)} (hd : HasDynamic f secs dyns) (hd' : HasDynamic f secs dyns') : dyns = dyns' := by
  obtain ⟨h', bs', ⟨i', g1, g2, g3⟩, g4, g5⟩ := hd'
  have e1 := C85_found_partial hs SecHistory.start g1 (t := 6) (.inr g2)
  obtain ⟨h0, bs0, ⟨i0, k1, k2, k3⟩, k4, k5⟩ := hd
  have e2 := C85_found_partial hs SecHistory.start k1 (t := 6) (.inr k2)
  rw [e1] at e2
  cases e2
  have a1 := dyns_load (i := 0) (name := []) hs.wf hs.size g4 (g5 ▸ g3)
  have a2 := dyns_load (i := 0) (name := []) hs.wf hs.size k4 (k5 ▸ k3)
  rw [a1] at a2
  cases a2
  rfl

theorem dynamic_spec {st : VerSt} (hst : VerKept f secs st) {dyns : List (Nat × Nat)} (hd : HasDynamic f secs dyns) :
    ∃ st', dynamic f st = (st', .ok dyns) ∧ VerKept f secs st' ∧ st'.vers = st.vers := by
  unfold dynamic
  rcases hst.dyn dyns hd with e | e
  · rw [e]
    simp only
    obtain ⟨h, bs, h1, h2, h3⟩ := id hd
    obtain ⟨st', i, s1, s2, s3, s4, _⟩ := sect_found hs hst h1
    have s1' : sectionV f nameDynamic 6 { st with dyn := some [] } = ({ st' with dyn := some [] }, .ok ⟨h, i, secDynamic⟩) := by
      unfold sectionV at s1 ⊢
      simp only at s1 ⊢
      have a1 := congrArg (fun q => q.1) s1
      have a2 := congrArg (fun q => q.2) s1
      simp only at a1 a2
      rw [← a1]
      show (_, (getSection f secDynamic 6 st.sec).2) = _
      rw [a2]
      rfl
    rw [V.bind_ok s1']
    obtain ⟨_, _, _, hb⟩ := h1
    rw [h3] at hb
    rw [dyns_load hs.wf hs.size h2 hb]
    refine ⟨{ st' with dyn := some dyns }, rfl, ⟨s2.sec, ?_⟩, s3⟩
    intro dyns' hd'
    rw [dyn_unique hs hd hd']
    exact .inr rfl
  · rw [e]
    exact ⟨st, rfl, hst, rfl⟩

theorem part_spec {α : Type} {name : List Byte} {t tag : Nat} {inBytes : List Byte → List Byte → Nat → List α → Prop} {loop : Rdr → Rdr → Nat → Nat → Versioning → Res Versioning} {add : Versioning → α → Versioning}
    (hloop : ∀ (sec strs : Rdr) (l : List α) (v : Versioning), sec.WF → sec.size + 2 ^ 16 < 2 ^ 64 → strs.WF → (∀ off, ¬AtFileStart strs off) → inBytes sec.content strs.content 0 l →
      loop sec strs l.length 0 v = .ok (l.foldl add v))
    (hl : 4 ≤ name.length) (hd : ¬ dotDebug <+: name) {l : List α} (hx : VersionTable f secs name t tag inBytes l) {st : VerSt} (hst : VerKept f secs st) (v : Versioning) :
    ∃ st', versionPart f name t tag loop v st = (st', .ok (l.foldl add v)) ∧ VerKept f secs st' ∧ st'.vers = st.vers := by
  unfold versionPart
  cases hx with
  | none h =>
    obtain ⟨st', s, s1, s2, s3, s4⟩ := sect_lacks hs hst hl hd h
    rw [V.bind_ok s1, s2, if_neg (by decide)]
    exact ⟨st', rfl, s3, s4⟩
  | @some h g n bs strs dyns _ h1 h2 h3 h4 h5 h6 =>
    obtain ⟨st', i, s1, s2, s3, _, s5⟩ := sect_found hs hst h1
    have hb : SectionBytes f h bs := h1.choose_spec.2.2
    rw [V.bind_ok s1, if_pos (has_bytes.2 hb.1), V.bind_ok (s5 g n i h2)]
    obtain ⟨st2, d1, d2, d3⟩ := dynamic_spec hs s2 h4
    rw [V.bind_ok d1]
    have hv : dynValue dyns tag = .ok l.length := by
      obtain ⟨before, after, e, hb⟩ := h5
      unfold dynValue
      have : dyns.find? (fun d => d.1 == tag) = some (tag, l.length) := by
        rw [e, List.find?_append, List.find?_eq_none.2 (by intro d hd; simpa using hb d hd)]
        simp
      rw [this]
    refine ⟨st2, ?_, d2, d3.trans s3⟩
    rw [V.bind_ok (a := l.length) (st' := st2) (by unfold V.lift; rw [hv])]
    split
    · next e =>
      have : l = [] := by cases l with | nil => rfl | cons => cases e
      rw [this]
      rfl
    · obtain ⟨r, r1, r2, r3, r4, r5⟩ := section_io hs.wf hs.size hb
      obtain ⟨q, q1, q2, q3, q4, q5⟩ := section_io hs.wf hs.size h3
      unfold V.lift
      rw [r1, Res.bind_ok]
      simp only
      rw [q1, Res.bind_ok, hloop r q l v r2 r4 q2 q5 (by rw [r3, q3]; exact h6)]

/-- All that is known of the versions of a file. -/
def versionsOf (needs : List FileNeeds) (defs : List VersionDef) : Versioning := defs.foldl addDef (needs.foldl addNeed .empty)

end

theorem symbolVersions_spec {f : ElfFile} {secs : List (Shdr × List Byte)} {k : Nat} {needs : List FileNeeds} {defs : List VersionDef} (hv : HasVersions f secs k needs defs) {st : VerSt} (hst : VerKept f secs st)
    (h : st.vers = none ∨ st.vers = some (versionsOf needs defs)) :
    ∃ st', symbolVersions f st = (st', .ok (versionsOf needs defs)) ∧ VerKept f secs st' ∧ st'.vers = some (versionsOf needs defs) := by
  unfold symbolVersions
  rcases h with e | e
  · rw [e]
    simp only
    obtain ⟨st1, a1, a2, a3⟩ := part_spec hv.sections (add := addNeed) (loop := needLoop)
      (fun sec strs l v w1 w2 w3 w4 h => by have := need_loop w1 w2 w3 w4 h v; rwa [Nat.zero_mod] at this) (by decide) (by decide) hv.needed hst .empty
    obtain ⟨st2, b1, b2, b3⟩ := part_spec hv.sections (add := addDef) (loop := defLoop)
      (fun sec strs l v w1 w2 w3 w4 h => by have := def_loop w1 w2 w3 w4 h v; rwa [Nat.zero_mod] at this) (by decide) (by decide) hv.defined a2 (needs.foldl addNeed .empty)
    refine ⟨{ st2 with vers := some (versionsOf needs defs) }, ?_, ⟨b2.sec, b2.dyn⟩, rfl⟩
    rw [V.bind_ok (show versionPart f nameNeeded 0x6ffffffe 0x6fffffff needLoop .empty st = _ from a1)]
    rw [V.bind_ok (show versionPart f nameDefined 0x6ffffffd 0x6ffffffd defLoop _ st1 = _ from b1)]
    rfl
  · rw [e]
    exact ⟨st, rfl, hst, e⟩

theorem sectionV_kept {f : ElfFile} {secs : List (Shdr × List Byte)} (name : List Byte) (t : Nat) {st : VerSt} (h : VerKept f secs st) :
    VerKept f secs (sectionV f name t st).1 ∧ (sectionV f name t st).1.vers = st.vers :=
  ⟨⟨SecHistory.call name t h.sec, h.dyn⟩, rfl⟩

theorem V.bind_lift {α β : Type} {x : V α} {g : α → Res β} (st : VerSt) : (V.bind x (fun a => V.lift (g a)) st).1 = (x st).1 := by
  unfold V.bind V.lift
  generalize x st = q
  obtain ⟨q1, q2⟩ := q
  cases q2 <;> rfl

theorem dynamic_kept {f : ElfFile} {secs : List (Shdr × List Byte)} {k : Nat} (hs : HasSections f secs k) {st : VerSt} (hst : VerKept f secs st) :
    VerKept f secs (dynamic f st).1 ∧ (dynamic f st).1.vers = st.vers := by
  by_cases hd : ∃ dyns, HasDynamic f secs dyns
  · obtain ⟨dyns, hd⟩ := hd
    obtain ⟨st', h1, h2, h3⟩ := dynamic_spec hs hst hd
    rw [h1]
    exact ⟨h2, h3⟩
  · have key : SecHistory f (dynamic f st).1.sec ∧ (dynamic f st).1.vers = st.vers := by
      unfold dynamic
      generalize st.dyn = d
      cases d with
      | some l => exact ⟨hst.sec, rfl⟩
      | none =>
        simp only
        unfold V.bind sectionV
        have hc := SecHistory.call nameDynamic 6 hst.sec
        simp only
        generalize (getSection f nameDynamic 6 st.sec) = q at hc ⊢
        obtain ⟨q1, q2⟩ := q
        cases q2 <;> exact ⟨hc, rfl⟩
    exact ⟨⟨key.1, fun dyns h => (hd ⟨dyns, h⟩).elim⟩, key.2⟩

section
variable {f : ElfFile} {secs : List (Shdr × List Byte)} {k : Nat} {needs : List FileNeeds} {defs : List VersionDef} (hv : HasVersions f secs k needs defs) {st : VerSt} (hst : VerHistory f st)
include hv hst

theorem ver_history : VerKept f secs st ∧ (st.vers = none ∨ st.vers = some (versionsOf needs defs)) := by
  induction hst with
  | start => exact ⟨⟨.start, fun _ _ => .inl rfl⟩, .inl rfl⟩
  | sect name t _ ih => exact ⟨(sectionV_kept name t ih.1).1, ih.2⟩
  | dyn _ ih =>
    obtain ⟨h1, h2⟩ := dynamic_kept hv.sections ih.1
    exact ⟨h1, by rw [h2]; exact ih.2⟩
  | all _ ih =>
    obtain ⟨st', h1, h2, h3⟩ := symbolVersions_spec hv ih.1 ih.2
    rw [h1]
    exact ⟨h2, .inr h3⟩
  | version idx _ ih =>
    obtain ⟨st', h1, h2, h3⟩ := symbolVersions_spec hv ih.1 ih.2
    unfold symbolVersion
    rw [V.bind_lift, h1]
    exact ⟨h2, .inr h3⟩
  | symbol idx _ ih =>
    unfold versionIdxForSymbol
    rw [V.bind_lift]
    exact ⟨(sectionV_kept _ _ ih.1).1, ih.2⟩

theorem versions_known : (symbolVersions f st).2 = .ok (versionsOf needs defs) := by
  obtain ⟨h1, h2⟩ := ver_history hv hst
  obtain ⟨st', h, _⟩ := symbolVersions_spec hv h1 h2
  rw [h]

theorem version_of (idx : Nat) : (symbolVersion f idx st).2 = (if 2 ≤ idx % 0x8000 then
      match (versionsOf needs defs).versions (idx % 0x8000) with
      | some n => .ok (some n)
      | none => .exc
    else .ok none) := by
  obtain ⟨h1, h2⟩ := ver_history hv hst
  obtain ⟨st', h, _⟩ := symbolVersions_spec hv h1 h2
  unfold symbolVersion
  rw [V.bind_ok h]
  rfl

end

/-! ### What is in the maps -/

theorem put_none : ∀ (l : List (Nat × List Byte)) (m : Nat → Option (List Byte)) (i : Nat), (∀ x ∈ l, x.1 ≠ i) → l.foldl (fun m x => put m x.1 x.2) m i = m i
  | [], _, _, _ => rfl
  | x :: l, m, i, h => by
    rw [List.foldl_cons, put_none l _ i (fun y hy => h y (.tail _ hy))]
    unfold put
    rw [if_neg (fun e => h x (.head _) e.symm)]

theorem put_some : ∀ (l : List (Nat × List Byte)) (m : Nat → Option (List Byte)) (i : Nat) (name : List Byte), (∀ x ∈ l, x.1 = i → x.2 = name) → ((∃ x ∈ l, x.1 = i) ∨ m i = some name) →
    l.foldl (fun m x => put m x.1 x.2) m i = some name
  | [], _, _, _, _, h => by
    rcases h with ⟨x, h, _⟩ | h
    · cases h
    · exact h
  | x :: l, m, i, name, h, h' => by
    rw [List.foldl_cons]
    apply put_some l _ i name (fun y hy => h y (.tail _ hy))
    by_cases e : x.1 = i
    · refine .inr ?_
      unfold put
      rw [if_pos e.symm, h x (.head _) e]
    · rcases h' with ⟨y, hy, e'⟩ | h'
      · cases hy with
        | head => exact (e e').elim
        | tail _ hy => exact .inl ⟨y, hy, e'⟩
      · refine .inr ?_
        unfold put
        rw [if_neg (fun e' => e e'.symm)]
        exact h'

theorem needs_versions : ∀ (needs : List FileNeeds) (v : Versioning), (needs.foldl addNeed v).versions = (needs.flatMap (·.vers)).foldl (fun m x => put m x.1 x.2) v.versions
  | [], _ => rfl
  | n :: l, v => by
    rw [List.foldl_cons, needs_versions l, List.flatMap_cons, List.foldl_append]
    rfl

theorem defs_versions : ∀ (defs : List VersionDef) (v : Versioning), (defs.foldl addDef v).versions = (defs.map (fun d => (d.index, d.name))).foldl (fun m x => put m x.1 x.2) v.versions
  | [], _ => rfl
  | n :: l, v => by
    rw [List.foldl_cons, defs_versions l, List.map_cons, List.foldl_cons]
    rfl

theorem versionsOf_eq (needs : List FileNeeds) (defs : List VersionDef) : (versionsOf needs defs).versions = (allVersions needs defs).foldl (fun m x => put m x.1 x.2) (fun _ => none) := by
  unfold versionsOf allVersions
  rw [defs_versions, needs_versions, List.foldl_append]
  rfl

theorem defs_files : ∀ (defs : List VersionDef) (v : Versioning), (defs.foldl addDef v).files = v.files
  | [], _ => rfl
  | n :: l, v => by
    rw [List.foldl_cons, defs_files l]
    rfl

theorem needs_files : ∀ (needs : List FileNeeds) (v : Versioning) (file : List Byte), (needs.foldl addNeed v).files file =
    if (needs.any (fun n => n.file == file)) = true then some ((v.files file).getD [] ++ (needs.filter (fun n => n.file == file)).flatMap (fun n => n.vers.map (·.1))) else v.files file
  | [], _, _ => rfl
  | n :: l, v, file => by
    rw [List.foldl_cons, needs_files l]
    by_cases e : n.file = file
    · subst e
      have : (addNeed v n).files n.file = some ((v.files n.file).getD [] ++ n.vers.map (·.1)) := by
        unfold addNeed put
        simp
      rw [this]
      simp only [List.any_cons, beq_self_eq_true, Bool.true_or, if_true, List.filter_cons_of_pos, List.flatMap_cons, Option.getD_some]
      split
      · rw [List.append_assoc]
      · next hn =>
        have : l.filter (fun x => x.file == n.file) = [] := by
          rw [List.filter_eq_nil_iff]
          intro x hx he
          exact hn (List.any_eq_true.2 ⟨x, hx, he⟩)
        rw [this]
        simp
    · have : (addNeed v n).files file = v.files file := by
        unfold addNeed put
        simp only
        rw [if_neg (fun h => e h.symm)]
      have hb : (n.file == file) = false := by simp [e]
      rw [this]
      simp only [List.any_cons, hb, Bool.false_or]
      rw [List.filter_cons_of_neg (by simp [e])]

theorem needs_predecessors : ∀ (needs : List FileNeeds) (v : Versioning), (needs.foldl addNeed v).predecessors = v.predecessors
  | [], _ => rfl
  | n :: l, v => by
    rw [List.foldl_cons, needs_predecessors l]
    rfl

theorem addDef_pred (v : Versioning) (d : VersionDef) (i : Nat) : (addDef v d).predecessors i = if d.index = i then (d.follows.or (v.predecessors i)) else v.predecessors i := by
  unfold addDef
  simp only
  cases d.follows with
  | none => simp
  | some p =>
    unfold put
    by_cases e : d.index = i
    · subst e
      simp
    · have e' : ¬ i = d.index := fun h => e h.symm
      simp [e, e']

theorem defs_predecessors (i : Nat) (p : Option (List Byte)) : ∀ (defs : List VersionDef) (v : Versioning), (∀ d ∈ defs, d.index = i → d.follows = p) →
    (defs.foldl addDef v).predecessors i = if (∃ d ∈ defs, d.index = i) then p.or (v.predecessors i) else v.predecessors i
  | [], _, _ => by
    simp
  | d :: l, v, h => by
    rw [List.foldl_cons, defs_predecessors i p l _ (fun x hx => h x (.tail _ hx)), addDef_pred]
    by_cases e : d.index = i
    · rw [h d (.head _) e]
      simp only [List.mem_cons, exists_eq_or_imp, e, true_or, if_true]
      split
      · cases p <;> rfl
      · rfl
    · simp only [List.mem_cons, exists_eq_or_imp, e, false_or, if_false]

/-! ### C93 -/

section
variable {f : ElfFile} {secs : List (Shdr × List Byte)} {k : Nat} {needs : List FileNeeds} {defs : List VersionDef} (hv : HasVersions f secs k needs defs) {st : VerSt} (hst : VerHistory f st)
include hv hst

/-- C93. After any calls, the version with an index is the one the file gives that index, whether it is needed or defined; bit 15 does not count. What is missing is an entry whose own index has bit 15
(C93_not_hidden). -/
theorem C93_version_partial {idx : Nat} {name : List Byte} (h2 : 2 ≤ idx % 2 ^ 15) (hx : (idx % 2 ^ 15, name) ∈ allVersions needs defs)
    (hu : ∀ n, (idx % 2 ^ 15, n) ∈ allVersions needs defs → n = name) : (symbolVersion f idx st).2 = .ok (some name) := by
  rw [version_of hv hst, if_pos h2, versionsOf_eq, put_some _ _ (idx % 0x8000) name (fun x hx e => hu x.2 (by rw [show (2 : Nat) ^ 15 = 0x8000 from rfl, ← e]; exact hx)) (.inl ⟨_, hx, rfl⟩)]

/-- C93. The indices of symbols that are local, or have no version. -/
theorem C93_none {idx : Nat} (h : idx % 2 ^ 15 < 2) : (symbolVersion f idx st).2 = .ok none := by
  rw [version_of hv hst, if_neg (by omega)]

/-- C93. An index the file does not say anything of is an error. -/
theorem C93_unknown {idx : Nat} (h2 : 2 ≤ idx % 2 ^ 15) (hx : ∀ n, (idx % 2 ^ 15, n) ∉ allVersions needs defs) : (symbolVersion f idx st).2 = .exc := by
  rw [version_of hv hst, if_pos h2, versionsOf_eq, put_none _ _ (idx % 0x8000) (fun x h e => hx x.2 (by rw [show (2 : Nat) ^ 15 = 0x8000 from rfl, ← e]; exact h))]

/-- An entry whose index has bit 15 is not found by its own index. -/
theorem C93_not_hidden {idx : Nat} {name : List Byte} (_ : (idx, name) ∈ allVersions needs defs) (_ : 2 ^ 15 ≤ idx) (h2 : 2 ≤ idx % 2 ^ 15) (hx : ∀ n, (idx % 2 ^ 15, n) ∉ allVersions needs defs) :
    (symbolVersion f idx st).2 = .exc := C93_unknown hv hst h2 hx

/-- C93. What is needed of each file: the indices, in order. -/
theorem C93_files : ∃ v, (symbolVersions f st).2 = .ok v ∧ ∀ file, (v.files file = none ↔ ∀ n ∈ needs, n.file ≠ file) ∧
    (v.files file).getD [] = (needs.filter (fun n => n.file = file)).flatMap (fun n => n.vers.map (·.1)) := by
  refine ⟨_, versions_known hv hst, fun file => ?_⟩
  have e : (versionsOf needs defs).files file = if (needs.any (fun n => n.file == file)) = true then some ((needs.filter (fun n => n.file == file)).flatMap (fun n => n.vers.map (·.1))) else none := by
    unfold versionsOf
    rw [defs_files, needs_files]
    rfl
  rw [e]
  by_cases h : (needs.any (fun n => n.file == file)) = true
  · rw [if_pos h]
    refine ⟨⟨nofun, fun hn => ?_⟩, by rw [Option.getD_some]; congr; funext n; rw [Bool.eq_iff_iff]; simp⟩
    obtain ⟨n, h1, h2⟩ := List.any_eq_true.1 h
    exact (hn n h1 (by simpa using h2)).elim
  · rw [if_neg h]
    have hn : ∀ n ∈ needs, n.file ≠ file := fun n h1 h2 => h (List.any_eq_true.2 ⟨n, h1, by simpa using h2⟩)
    refine ⟨⟨fun _ => hn, fun _ => rfl⟩, ?_⟩
    rw [List.filter_eq_nil_iff.2 (by intro n h1; simpa using hn n h1)]
    rfl

/-- C93. The version that a version follows. -/
theorem C93_predecessor {d : VersionDef} (hd : d ∈ defs) (hu : ∀ d' ∈ defs, d'.index = d.index → d' = d) :
    ∃ v, (symbolVersions f st).2 = .ok v ∧ v.predecessors d.index = d.follows := by
  refine ⟨_, versions_known hv hst, ?_⟩
  unfold versionsOf
  rw [defs_predecessors d.index d.follows _ _ (fun x hx e => by rw [hu x hx e]), if_pos ⟨d, hd, rfl⟩, needs_predecessors]
  cases d.follows <;> rfl

/-- C93. The index of the `n`th symbol of .dynsym. -/
theorem C93_symbol {h : Shdr} {idxs : List Nat} (hx : HasSection f secs secVersym 0x6fffffff h (idxs.map (leBytes 2)).flatten) (hb : ∀ i ∈ idxs, i < 2 ^ 16) {n i : Nat} (hn : idxs[n]? = some i) :
    (versionIdxForSymbol f n st).2 = .ok (some i) := by
  obtain ⟨st', j, s1, s2, _⟩ := sect_found hv.sections (ver_history hv hst).1 hx
  obtain ⟨_, _, _, hsb⟩ := hx
  obtain ⟨r, r1, r2, r3, r4, _⟩ := section_io hv.sections.wf hv.sections.size hsb
  have hdrop : ∀ (idxs : List Nat) (n i : Nat), idxs[n]? = some i → ∃ rest, (idxs.map (leBytes 2)).flatten.drop (n * 2) = leBytes 2 i ++ rest := by
    intro idxs
    induction idxs with
    | nil => intro n i h; cases h
    | cons x l ih =>
      intro n i h
      cases n with
      | zero => cases h; exact ⟨_, rfl⟩
      | succ n =>
        obtain ⟨rest, e⟩ := ih n i h
        refine ⟨rest, ?_⟩
        rw [List.map_cons, List.flatten_cons, List.drop_append, leBytes_length, List.drop_eq_nil_of_le (by rw [leBytes_length]; omega), List.nil_append, ← e]
        congr 1
        omega
  obtain ⟨rest, hd⟩ := hdrop idxs n i hn
  rw [← r3] at hd
  obtain ⟨k1, k2⟩ := struct_read r2 r4 (leBytes_length 2 i) (by decide) (by decide) hd
  unfold versionIdxForSymbol
  rw [V.bind_ok (show sectionV f nameVersym 0x6fffffff st = _ from s1)]
  unfold V.lift
  simp only
  rw [if_pos (has_bytes.2 hsb.1), r1, Res.bind_ok, Nat.mod_eq_of_lt (by rw [W64_eq]; omega), k2, Res.bind_ok]
  have := field_at [] [] 0 2 i rfl (hb i (List.mem_of_getElem? hn))
  rw [List.nil_append, List.append_nil] at this
  rw [this]

/-- C93. A file without such indices. -/
theorem C93_no_symbols (hx : LacksSection secs secVersym 0x6fffffff) (n : Nat) : (versionIdxForSymbol f n st).2 = .ok none := by
  obtain ⟨st', s, s1, s2, _⟩ := sect_lacks hv.sections (ver_history hv hst).1 (by decide) (by decide) hx
  unfold versionIdxForSymbol
  rw [V.bind_ok (show sectionV f nameVersym 0x6fffffff st = _ from s1)]
  unfold V.lift
  simp only
  rw [s2, if_neg (by decide)]

end

end Pstack.Props
