import Verif.Model.TypeName
import Verif.Spec.TypeName
import Verif.Proof.ArgList
import Verif.Props.FindEntry
/-
Property theorems C94: the name of a type (Spec/TypeName.lean), after any history.
-/
namespace Pstack.Props
open Pstack.Reader Pstack.Spec Pstack.Dwarf Pstack.Die Pstack.Args Pstack.TypeName

theorem suffix_eq (t : Nat) : suffix t = fourSuffixes t := by
  unfold suffix fourSuffixes
  by_cases h : t ≤ 0x35
  · rw [if_pos h]
    have : ∀ t, t ≤ 0x35 → (if t = 0x0f then some (say " *") else if t = 0x26 then some (say " const") else if t = 0x35 then some (say " volatile") else if t = 0x10 then some (say "&") else none) =
        typeSuffix t := by decide +kernel
    exact this t h
  · rw [if_neg h, if_neg (by omega), if_neg (by omega), if_neg (by omega), if_neg (by omega)]

section
variable {d : Sections} {xs : List DieUnit} (hok : InfoOk d xs)

/-- The name of the type `r` is `t`, with enough fuel. -/
def SaysType (d : Sections) (xs : List DieUnit) (r : Option EntryRef) (t : List Byte) : Prop :=
  ∃ m, ∀ fuel rounds depth, m ≤ fuel → m ≤ rounds → m ≤ depth → ∀ y s, ISt d xs s → IsRefOpt d xs s y r → ∃ s', typeName d fuel rounds depth y s = .ok (t, s') ∧ Kept d xs s s'

/-- The name of the type of each parameter. -/
def SaysTypes (d : Sections) (xs : List DieUnit) : List EntryRef → List (List Byte) → Prop
  | [], [] => True
  | p :: ps, t :: ts => (∃ r, TypeOf xs p r ∧ SaysType d xs r t) ∧ SaysTypes d xs ps ts
  | _, _ => False

theorem says_types : ∀ (ps : List EntryRef) (rs : List (Option EntryRef)) (ts : List (List Byte)), rs.length = ps.length → ts.length = rs.length →
    (∀ (i : Nat) q r, ps[i]? = some q → rs[i]? = some r → TypeOf xs q r) → (∀ (i : Nat) r t, rs[i]? = some r → ts[i]? = some t → SaysType d xs r t) → SaysTypes d xs ps ts
  | [], [], [], _, _, _, _ => trivial
  | p :: ps, r :: rs, t :: ts, h1, h2, h3, h4 =>
    ⟨⟨r, h3 0 p r rfl rfl, h4 0 r t rfl rfl⟩, says_types ps rs ts (by simpa using h1) (by simpa using h2) (fun i q r a b => h3 (i + 1) q r a b) (fun i r t a b => h4 (i + 1) r t a b)⟩
  | [], _ :: _, _, h, _, _, _ => by simp at h
  | _ :: _, [], _, h, _, _, _ => by simp at h
  | [], [], _ :: _, _, h, _, _ => by simp at h
  | _ :: _, _ :: _, [], _, h, _, _ => by simp at h

include hok

/-- What is written for the children `F` of a function type. -/
theorem params_loop {uo : Nat} {x : DieUnit} {T : Tree} (F : Forest (Nat × DieEntry)) :
    ∀ ts, SaysTypes d xs (parameters uo x F) ts →
    ∃ m, ∀ fuel rounds depth n, m ≤ fuel → m ≤ rounds → m ≤ depth → F.tops.length < n → ∀ (first : Bool) (p : DIE) (s : IState) (par : Nat) (ep : DieEntry), ISt d xs s → GoodDie d xs s p uo x par ep →
      UnitOpened d uo x p.unit T → (F = .done ∨ ∃ g, PlaceOf d uo x T par g F) → (∀ a, F.head? = some a → GoodDie d xs s ⟨p.unit, ⟨(s.st uo).epoch, a.1⟩⟩ uo x a.1 a.2) →
      ∃ s', paramTypes d fuel (fun y s => typeName d fuel rounds depth y s) n (F.head?.map (fun a => ⟨p.unit, ⟨(s.st uo).epoch, a.1⟩⟩)) p first s = .ok (moreText first ts, s') ∧ Kept d xs s s' := by
  have step : ∀ (F R : Forest (Nat × DieEntry)) (a : Nat × DieEntry), F.head? = some a → F.rest = R → F.tops = a :: R.tops →
      (∀ ts, SaysTypes d xs (parameters uo x R) ts →
    ∃ m, ∀ fuel rounds depth n, m ≤ fuel → m ≤ rounds → m ≤ depth → R.tops.length < n → ∀ (first : Bool) (p : DIE) (s : IState) (par : Nat) (ep : DieEntry), ISt d xs s → GoodDie d xs s p uo x par ep →
      UnitOpened d uo x p.unit T → (R = .done ∨ ∃ g, PlaceOf d uo x T par g R) → (∀ a, R.head? = some a → GoodDie d xs s ⟨p.unit, ⟨(s.st uo).epoch, a.1⟩⟩ uo x a.1 a.2) →
      ∃ s', paramTypes d fuel (fun y s => typeName d fuel rounds depth y s) n (R.head?.map (fun a => ⟨p.unit, ⟨(s.st uo).epoch, a.1⟩⟩)) p first s = .ok (moreText first ts, s') ∧ Kept d xs s s') →
      ∀ ts, SaysTypes d xs (parameters uo x F) ts →
    ∃ m, ∀ fuel rounds depth n, m ≤ fuel → m ≤ rounds → m ≤ depth → F.tops.length < n → ∀ (first : Bool) (p : DIE) (s : IState) (par : Nat) (ep : DieEntry), ISt d xs s → GoodDie d xs s p uo x par ep →
      UnitOpened d uo x p.unit T → (F = .done ∨ ∃ g, PlaceOf d uo x T par g F) → (∀ a, F.head? = some a → GoodDie d xs s ⟨p.unit, ⟨(s.st uo).epoch, a.1⟩⟩ uo x a.1 a.2) →
      ∃ s', paramTypes d fuel (fun y s => typeName d fuel rounds depth y s) n (F.head?.map (fun a => ⟨p.unit, ⟨(s.st uo).epoch, a.1⟩⟩)) p first s = .ok (moreText first ts, s') ∧ Kept d xs s s' := by
    intro F R a hF hR htops ih ts hts
    have hpar : parameters uo x F = (if a.2.decl.tag = 5 then [⟨uo, x, a.1, a.2⟩] else []) ++ parameters uo x R := by
      unfold parameters
      rw [htops, List.filter_cons]
      by_cases h : a.2.decl.tag = 5 <;> simp [h]
    rw [hpar] at hts
    -- after the first one
    have after : ∀ (m : Nat) (ts : List (List Byte)), (∀ fuel rounds depth n, m ≤ fuel → m ≤ rounds → m ≤ depth → R.tops.length < n → ∀ (first : Bool) (p : DIE) (s : IState) (par : Nat) (ep : DieEntry), ISt d xs s →
      GoodDie d xs s p uo x par ep → UnitOpened d uo x p.unit T → (R = .done ∨ ∃ g, PlaceOf d uo x T par g R) → (∀ a, R.head? = some a → GoodDie d xs s ⟨p.unit, ⟨(s.st uo).epoch, a.1⟩⟩ uo x a.1 a.2) →
      ∃ s', paramTypes d fuel (fun y s => typeName d fuel rounds depth y s) n (R.head?.map (fun a => ⟨p.unit, ⟨(s.st uo).epoch, a.1⟩⟩)) p first s = .ok (moreText first ts, s') ∧ Kept d xs s s') →
      ∀ fuel rounds depth n, m ≤ fuel → m ≤ rounds → m ≤ depth → R.tops.length < n → ∀ (first : Bool) (p : DIE) (y : DIE) (s : IState) (par : Nat) (ep : DieEntry), ISt d xs s → GoodDie d xs s p uo x par ep →
      UnitOpened d uo x p.unit T → (∃ g, PlaceOf d uo x T par g F) → y.unit = p.unit → GoodDie d xs s y uo x a.1 a.2 →
      ∃ k s1 s', kidsNext y p s = .ok (k, s1) ∧ paramTypes d fuel (fun y s => typeName d fuel rounds depth y s) n k p first s1 = .ok (moreText first ts, s') ∧ Kept d xs s s' := by
      intro m ts hm fuel rounds depth n h1 h2 h3 h4 first p y s par ep hs hg hop ⟨g, hP⟩ hyu hga
      obtain ⟨s2, c1, c2, c3, c4⟩ := kidsNext_spec (y := y) hs hg (by rw [hyu]; exact hop) hP hF hga
      have hep : (s.st uo).epoch = (s2.st uo).epoch := (c3.1 uo).1.symm
      rw [hep, hR, hyu] at c1 c4
      obtain ⟨s', q1, q2⟩ := hm fuel rounds depth n h1 h2 h3 h4 first p s2 par ep c2 (hg.ext c3) hop (.inr ⟨_, hR ▸ hP.next⟩) c4
      exact ⟨_, s2, s', c1, q1, Kept.trans ⟨c2, c3⟩ q2⟩
    by_cases htag : a.2.decl.tag = 5
    · rw [if_pos htag] at hts
      cases ts with
      | nil => exact hts.elim
      | cons t ts' =>
      obtain ⟨⟨r, hr, m3, h3⟩, hts'⟩ := hts
      obtain ⟨m1, h1⟩ := ih ts' hts'
      obtain ⟨m2, h2⟩ := type_of hok (d := d) hr
      refine ⟨m1 + m2 + m3, fun fuel rounds depth n hf hr hdp hn first p s par ep hs hg hop hP hh => ?_⟩
      obtain ⟨k, rfl⟩ : ∃ k, n = k + 1 := ⟨n - 1, by omega⟩
      have hga := hh a hF
      obtain ⟨raw, r1, r2, _⟩ := good_raw hok hs hga
      obtain ⟨z, s0, z1, z2, z3⟩ := h2 fuel (by omega) _ s hs hga
      obtain ⟨s1, a1, a2⟩ := h3 fuel rounds depth (by omega) (by omega) (by omega) z s0 z2.1 z3
      have a2 := z2.trans a2
      have hP' : ∃ g, PlaceOf d uo x T par g F := by
        rcases hP with e | h
        · rw [e] at hF; cases hF
        · exact h
      obtain ⟨ky, s2, s', b1, b2, b3⟩ := after m1 ts' h1 fuel rounds depth k (by omega) (by omega) (by omega) (by rw [htops] at hn; simp at hn; omega) false p (y := ⟨p.unit, ⟨(s.st uo).epoch, a.1⟩⟩) s1 par ep a2.1 (hg.ext a2.2) hop hP'
        rfl (GoodDie.ext hga a2.2)
      refine ⟨s', ?_, a2.trans b3⟩
      rw [hF, Option.map_some, paramTypes, r1, Res.bind_ok, r2, if_pos htag, z1, Res.bind_ok]
      simp only
      rw [a1, Res.bind_ok]
      simp only
      rw [b1, Res.bind_ok]
      simp only
      rw [b2, Res.bind_ok, moreText_cons]
    · rw [if_neg htag] at hts
      obtain ⟨m1, h1⟩ := ih ts hts
      refine ⟨m1, fun fuel rounds depth n hf hr hdp hn first p s par ep hs hg hop hP hh => ?_⟩
      obtain ⟨k, rfl⟩ : ∃ k, n = k + 1 := ⟨n - 1, by omega⟩
      have hga := hh a hF
      obtain ⟨raw, r1, r2, _⟩ := good_raw hok hs hga
      have hP' : ∃ g, PlaceOf d uo x T par g F := by
        rcases hP with e | h
        · rw [e] at hF; cases hF
        · exact h
      obtain ⟨ky, s2, s', b1, b2, b3⟩ := after m1 ts h1 fuel rounds depth k hf hr hdp (by rw [htops] at hn; simp at hn; omega) first p (y := ⟨p.unit, ⟨(s.st uo).epoch, a.1⟩⟩) s par ep hs hg hop hP'
        rfl hga
      refine ⟨s', ?_, b3⟩
      rw [hF, Option.map_some, paramTypes, r1, Res.bind_ok, r2, if_neg htag, b1, Res.bind_ok]
      exact b2
  induction F with
  | done =>
    intro ts hts
    cases ts with
    | cons => exact hts.elim
    | nil =>
    refine ⟨0, fun fuel rounds depth n _ _ _ hn first p s par ep hs hg hop hP hh => ⟨s, ?_, Kept.refl hs⟩⟩
    obtain ⟨k, rfl⟩ : ∃ k, n = k + 1 := ⟨n - 1, by simp [Forest.tops] at hn; omega⟩
    show paramTypes d fuel _ (k + 1) none p first s = _
    rw [paramTypes]
    cases first <;> rfl
  | leaf a r ih => exact step _ r a rfl rfl rfl ih
  | node a k r _ ih => exact step _ r a rfl rfl rfl ih

/-- The beginning: a type without a name, and what it is made of. -/
theorem type_head (hfit : SectionsFit d) {p : EntryRef} {r : Option EntryRef} (hn : NamedAs d xs p []) (ht : TypeOf xs p r) :
    ∃ m, ∀ fuel, m ≤ fuel → ∀ y s, ISt d xs s → IsRef d xs s y p → ∃ s1 z s2 raw, dieName d fuel y s = .ok ([], s1) ∧ typeOf d fuel y s1 = .ok (z, s2) ∧ rawOf s2 y = .ok raw ∧
      raw.type.tag = p.e.decl.tag ∧ Kept d xs s s2 ∧ IsRefOpt d xs s2 z r := by
  obtain ⟨m1, h1⟩ := named_of hok hfit hn
  obtain ⟨m2, h2⟩ := type_of hok (d := d) ht
  refine ⟨m1 + m2, fun fuel hf y s hs hg => ?_⟩
  obtain ⟨s1, a1, a2⟩ := h1 fuel (by omega) y s hs hg
  obtain ⟨z, s2, b1, b2, b3⟩ := h2 fuel (by omega) y s1 a2.1 (GoodDie.ext hg a2.2)
  have k2 := a2.trans b2
  obtain ⟨raw, r1, r2, _⟩ := good_raw hok k2.1 (GoodDie.ext hg k2.2)
  exact ⟨s1, z, s2, raw, a1, b1, r1, r2, k2, b3⟩

theorem type_named (hfit : SectionsFit d) {r : Option EntryRef} {t : List Byte} (h : TypeNamed fourSuffixes d xs r t) : SaysType d xs r t := by
  induction h with
  | void =>
    refine ⟨1, fun fuel rounds depth _ _ h3 y s hs hg => ?_⟩
    obtain ⟨k, rfl⟩ : ∃ k, depth = k + 1 := ⟨depth - 1, by omega⟩
    cases y with
    | some y => exact hg.elim
    | none => exact ⟨s, rfl, Kept.refl hs⟩
  | @named p n hn hne =>
    obtain ⟨m, hm⟩ := named_of hok hfit hn
    refine ⟨m + 1, fun fuel rounds depth h1 _ h3 y s hs hg => ?_⟩
    obtain ⟨k, rfl⟩ : ∃ k, depth = k + 1 := ⟨depth - 1, by omega⟩
    cases y with
    | none => exact hg.elim
    | some y =>
      obtain ⟨s1, a1, a2⟩ := hm fuel (by omega) y s hs hg
      refine ⟨s1, ?_, a2⟩
      rw [typeName, a1, Res.bind_ok]
      simp only
      rw [if_pos hne]
  | @made p r t after hn hsfx ht _ ih =>
    obtain ⟨m1, h1⟩ := type_head hok hfit hn ht
    obtain ⟨m2, h2⟩ := ih
    refine ⟨m1 + m2 + 1, fun fuel rounds depth hf hr hd y s hs hg => ?_⟩
    obtain ⟨k, rfl⟩ : ∃ k, depth = k + 1 := ⟨depth - 1, by omega⟩
    cases y with
    | none => exact hg.elim
    | some y =>
      obtain ⟨s1, z, s2, raw, a1, a2, a3, a4, a5, a6⟩ := h1 fuel (by omega) y s hs hg
      obtain ⟨s3, b1, b2⟩ := h2 fuel rounds k (by omega) (by omega) (by omega) z s2 a5.1 a6
      refine ⟨s3, ?_, a5.trans b2⟩
      rw [typeName, a1, Res.bind_ok]
      simp only
      rw [if_neg (by decide), a2, Res.bind_ok]
      simp only
      rw [a3, Res.bind_ok, a4, suffix_eq, hsfx]
      simp only
      rw [b1, Res.bind_ok]
  | @function p r t F rs ts hn htag ht _ hF hl1 hl2 hty _ ih ih2 =>
    obtain ⟨m1, h1⟩ := type_head hok hfit hn ht
    obtain ⟨m2, h2⟩ := ih
    by_cases hin : (p.uo, p.x) ∈ placeUnits 0 xs
    · obtain ⟨u, T, hop⟩ := opened hok hin
      obtain ⟨m3, h3⟩ := params_loop hok (T := T) F ts (says_types _ rs ts hl1 hl2 hty ih2)
      refine ⟨m1 + m2 + m3 + F.tops.length + 1, fun fuel rounds depth hf hr hd y s hs hg => ?_⟩
      obtain ⟨k, rfl⟩ : ∃ k, depth = k + 1 := ⟨depth - 1, by omega⟩
      cases y with
      | none => exact hg.elim
      | some y =>
        have hg : GoodDie d xs s y p.uo p.x p.o p.e := hg
        have : u = y.unit := by have := hop.isOpen; rw [hg.isOpen] at this; injection this with this; exact this.symm
        subst this
        obtain ⟨s1, z, s2, raw, a1, a2, a3, a4, a5, a6⟩ := h1 fuel (by omega) y s hs hg
        obtain ⟨s3, b1, b2⟩ := h2 fuel rounds k (by omega) (by omega) (by omega) z s2 a5.1 a6
        have k3 := a5.trans b2
        obtain ⟨s4, c1, c2, c3, c4, c5⟩ := kidsBegin_spec hok k3.1 (GoodDie.ext hg k3.2) hop hF
        have hep : (s3.st p.uo).epoch = (s4.st p.uo).epoch := (c3.1 p.uo).1.symm
        rw [hep] at c1 c4
        obtain ⟨s5, d1, d2⟩ := h3 fuel rounds k rounds (by omega) (by omega) (by omega) (by omega) true y s4 p.o p.e c2 (GoodDie.ext (GoodDie.ext hg k3.2) c3) hop c5 c4
        refine ⟨s5, ?_, (k3.trans ⟨c2, c3⟩).trans d2⟩
        rw [typeName, a1, Res.bind_ok]
        simp only
        rw [if_neg (by decide), a2, Res.bind_ok]
        simp only
        rw [a3, Res.bind_ok, a4, htag, show suffix 0x15 = none from by decide]
        simp only
        rw [if_pos trivial, b1, Res.bind_ok]
        simp only
        rw [c1, Res.bind_ok]
        simp only
        rw [d1, Res.bind_ok]
        rfl
    · refine ⟨0, fun fuel rounds depth _ _ _ y s hs hg => ?_⟩
      cases y with
      | none => exact hg.elim
      | some y =>
        have hg : GoodDie d xs s y p.uo p.x p.o p.e := hg
        exact (hin hg.entry.1).elim

end

section
variable {d : Sections} {xs : List DieUnit} (hok : InfoOk d xs) (hfit : SectionsFit d) (hrefs : RefsOk xs) {cl : IClient} (hc : IHistory d xs cl)
include hok hfit hrefs hc

/-- C94. The name of a type a program has a `DIE` of: its own, or made of those of the types it refers to, whatever was looked at before.
Missing: restricted, atomic and other types made of another (`C94_not_handled`), types that refer to themselves (`C94_not_circle`). -/
theorem C94_name_partial {y : DIE} (hy : cl.Holds d y) : ∃ p : EntryRef, IsEntry d xs y p.uo p.x p.o p.e ∧ ∀ t, TypeNamed fourSuffixes d xs (some p) t →
    ∃ n, ∀ fuel rounds depth, n ≤ fuel → n ≤ rounds → n ≤ depth → ∃ s', typeName d fuel rounds depth (some y) cl.st = .ok (t, s') := by
  have hg := igood_history hok hrefs hc
  obtain ⟨uo, x, o, e, h⟩ := holds_good hok hg hy
  refine ⟨⟨uo, x, o, e⟩, h.isEntry, ?_⟩
  intro t ht
  obtain ⟨n, hn⟩ := type_named hok hfit ht
  refine ⟨n, fun fuel rounds depth h1 h2 h3 => ?_⟩
  obtain ⟨s', k, _⟩ := hn fuel rounds depth h1 h2 h3 (some y) cl.st hg.st h
  exact ⟨s', k⟩

/-- C94 does not hold for other types without a name, restricted and atomic types for example: nothing is said but the number of the tag. -/
theorem C94_not_handled {y : DIE} (hy : cl.Holds d y) : ∃ p : EntryRef, IsEntry d xs y p.uo p.x p.o p.e ∧ ∀ r, NamedAs d xs p [] → TypeOf xs p r → fourSuffixes p.e.decl.tag = none → p.e.decl.tag ≠ 0x15 →
    ∃ n, ∀ fuel rounds depth, n ≤ fuel → 0 < depth → ∃ s', typeName d fuel rounds depth (some y) cl.st = .ok (asciiText "(unhandled tag " ++ (decimalText p.e.decl.tag ++ asciiText ")"), s') := by
  have hg := igood_history hok hrefs hc
  obtain ⟨uo, x, o, e, h⟩ := holds_good hok hg hy
  refine ⟨⟨uo, x, o, e⟩, h.isEntry, ?_⟩
  intro r hn ht hs h15
  obtain ⟨m, hm⟩ := type_head hok hfit hn ht
  refine ⟨m, fun fuel rounds depth h1 h2 => ?_⟩
  obtain ⟨k, rfl⟩ : ∃ k, depth = k + 1 := ⟨depth - 1, by omega⟩
  obtain ⟨s1, z, s2, raw, a1, a2, a3, a4, a5, a6⟩ := hm fuel h1 y cl.st hg.st h
  refine ⟨s2, ?_⟩
  rw [typeName, a1, Res.bind_ok]
  simp only
  rw [if_neg (by decide), a2, Res.bind_ok]
  simp only
  rw [a3, Res.bind_ok, a4, suffix_eq, hs]
  simp only
  rw [if_neg h15]
  rfl

/-- A pointer, reference or qualified type without a name that refers to itself: the function does not return, however deep the stack is. -/
theorem C94_not_circle {y : DIE} (hy : cl.Holds d y) : ∃ p : EntryRef, IsEntry d xs y p.uo p.x p.o p.e ∧ ∀ after, NamedAs d xs p [] → TypeOf xs p (some p) → fourSuffixes p.e.decl.tag = some after →
    ∃ n, ∀ fuel rounds depth, n ≤ fuel → typeName d fuel rounds depth (some y) cl.st = .ub := by
  have hg := igood_history hok hrefs hc
  obtain ⟨uo, x, o, e, h⟩ := holds_good hok hg hy
  refine ⟨⟨uo, x, o, e⟩, h.isEntry, ?_⟩
  intro after hn ht hs
  obtain ⟨m, hm⟩ := type_head hok hfit hn ht
  refine ⟨m, fun fuel rounds depth h1 => ?_⟩
  have key : ∀ depth z s, ISt d xs s → IsRefOpt d xs s z (some ⟨uo, x, o, e⟩) → typeName d fuel rounds depth z s = .ub := by
    intro depth
    induction depth with
    | zero => intro z s _ _; rw [typeName]
    | succ k ih =>
      intro z s hst hz
      cases z with
      | none => exact hz.elim
      | some z =>
        obtain ⟨s1, z', s2, raw, a1, a2, a3, a4, a5, a6⟩ := hm fuel h1 z s hst hz
        rw [typeName, a1, Res.bind_ok]
        simp only
        rw [if_neg (by decide), a2, Res.bind_ok]
        simp only
        rw [a3, Res.bind_ok, a4, suffix_eq, hs]
        simp only
        rw [ih z' s2 a5.1 a6]
        rfl
  exact key depth (some y) cl.st hg.st h

end

end Pstack.Props
