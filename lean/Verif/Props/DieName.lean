import Verif.Proof.DieName
import Verif.Props.FindEntry
/-
Property theorems C76 and C77: the qualified name of a function, and the offset of an address in it (Spec/DieName.lean), after any history.
-/
namespace Pstack.Props
open Pstack.Reader Pstack.Spec Pstack.Dwarf Pstack.Die

section
variable {d : Sections} {xs : List DieUnit} (hok : InfoOk d xs) (hfit : SectionsFit d) (hrefs : RefsOk xs) {c : IClient} (hc : IHistory d xs c)
include hok hfit hrefs hc

/-- C76. The name a function is shown with is its own, qualified with the names of the scopes it is declared in, wherever its entry is and whatever was looked at before.
Missing: unions (`C76_not_union`). -/
theorem C76_name_partial {y : DIE} (hy : c.Holds d y) : ∃ uo x o e, IsEntry d xs y uo x o e ∧ ∀ l nm, DeclaredAs d xs uo x o e l nm → (∀ p ∈ l, p.1 ≠ 0x17) →
    ∃ n, ∀ fuel depth, n ≤ fuel → n ≤ depth → ∃ s', qualifiedName d fuel depth y c.st = .ok (qualified l nm, s') := by
  have hg := igood_history hok hrefs hc
  obtain ⟨uo, x, o, e, h⟩ := holds_good hok hg hy
  refine ⟨uo, x, o, e, h.isEntry, ?_⟩
  intro l nm hd hl
  obtain ⟨n, hn⟩ := declared_built hok hfit hd
  refine ⟨n + 1, fun fuel depth h1 h2 => ?_⟩
  obtain ⟨s', k, _⟩ := hn fuel depth (by omega) (by omega) y c.st hg.st h
  have e1 : withoutUnions l = l := by
    unfold withoutUnions
    exact List.filter_eq_self.2 (fun p hp => decide_eq_true (hl p hp))
  rw [e1] at k
  refine ⟨s', ?_⟩
  unfold qualifiedName
  rw [k, Res.bind_ok]

/-- C76 does not hold for what is declared in a union: the names of unions are left out. -/
theorem C76_not_union {y : DIE} (hy : c.Holds d y) : ∃ uo x o e, IsEntry d xs y uo x o e ∧ ∀ l nm, DeclaredAs d xs uo x o e l nm →
    ∃ n, ∀ fuel depth, n ≤ fuel → n ≤ depth → ∃ s', qualifiedName d fuel depth y c.st = .ok (qualified (withoutUnions l) nm, s') := by
  have hg := igood_history hok hrefs hc
  obtain ⟨uo, x, o, e, h⟩ := holds_good hok hg hy
  refine ⟨uo, x, o, e, h.isEntry, ?_⟩
  intro l nm hd
  obtain ⟨n, hn⟩ := declared_built hok hfit hd
  refine ⟨n + 1, fun fuel depth h1 h2 => ?_⟩
  obtain ⟨s', k, _⟩ := hn fuel depth (by omega) (by omega) y c.st hg.st h
  refine ⟨s', ?_⟩
  unfold qualifiedName
  rw [k, Res.bind_ok]

/-- C77. A frame in a function: the qualified name of the function, the distance of the address from where the function starts, and the inlined functions there.
Missing: unions (C76), the ends of ranges (C58), addresses before the start of the function (`C77_not_before`). -/
theorem C77_frame_partial {y : DIE} (hy : c.Holds d y) : ∃ uo x o e, IsEntry d xs y uo x o e ∧ ∀ l nm start F (addr : BitVec 64), DeclaredAs d xs uo x o e l nm → (∀ p ∈ l, p.1 ≠ 0x17) →
    StartsAt d xs uo x o e start → start ≤ addr.toNat → addr.toNat - start < 2 ^ 64 - 1 → (x.placed uo).KidsOf (o, e) F → (∀ b ∈ (o, e) :: F.all, Told d xs uo x addr.toNat b) →
    ∃ n, ∀ fuel depth sym, n ≤ fuel → n ≤ depth → ∃ off zs as s', printableFrame d fuel depth (F.all.length + 1) (some y) sym addr c.st = .ok ((qualified l nm, off, zs), s') ∧
      off.toNat = addr.toNat - start ∧ AreEntries d xs uo x zs as ∧ InlineChain d xs uo x addr.toNat (o, e) F as := by
  have hg := igood_history hok hrefs hc
  obtain ⟨uo, x, o, e, h⟩ := holds_good hok hg hy
  refine ⟨uo, x, o, e, h.isEntry, ?_⟩
  intro l nm start F addr hd hl hst hle hlt hF ht
  have e1 : withoutUnions l = l := by
    unfold withoutUnions
    exact List.filter_eq_self.2 (fun p hp => decide_eq_true (hl p hp))
  have hoff : ∃ n, ∀ fuel, n ≤ fuel → ∀ y s, ISt d xs s → RangesRight d xs s → GoodDie d xs s y uo x o e →
      ∃ s', offsetIn d fuel y addr s = .ok (addr - BitVec.ofNat 64 start, s') ∧ KeptR d xs s s' ∧ RangesRight d xs s' := by
    obtain ⟨n, hn⟩ := offset_starts hok hfit hrefs hst
    exact ⟨n, fun fuel hf y s hs hr hg => hn fuel hf y s addr hs hr hg⟩
  obtain ⟨n, hn⟩ := frame_built hok hfit hrefs hd hF ht hoff
  refine ⟨n, fun fuel depth sym h1 h2 => ?_⟩
  obtain ⟨zs, as, s', k1, k2, k3⟩ := hn fuel depth h1 h2 y c.st sym hg.st (ranges_history hok hfit hrefs hc) h
  have hw : (addr - BitVec.ofNat 64 start).toNat = addr.toNat - start := by
    have := addr.isLt
    rw [BitVec.toNat_sub, BitVec.toNat_ofNat]
    omega
  have hne : addr - BitVec.ofNat 64 start ≠ BitVec.allOnes 64 := by
    intro hc
    rw [hc, BitVec.toNat_allOnes] at hw
    omega
  refine ⟨addr - BitVec.ofNat 64 start, zs, as, s', ?_, hw, k2, k3⟩
  rw [k1, e1]
  unfold orSymbol
  rw [if_neg hne]

/-- C77. A function whose entry does not say where it starts: the distance from the ELF symbol. -/
theorem C77_symbol_partial {y : DIE} (hy : c.Holds d y) : ∃ uo x o e, IsEntry d xs y uo x o e ∧ ∀ l nm F (addr : BitVec 64), DeclaredAs d xs uo x o e l nm → (∀ p ∈ l, p.1 ≠ 0x17) →
    NoStart xs uo o e → (x.placed uo).KidsOf (o, e) F → (∀ b ∈ (o, e) :: F.all, Told d xs uo x addr.toNat b) →
    ∃ n, ∀ fuel depth (sym : BitVec 64), n ≤ fuel → n ≤ depth → sym.toNat ≤ addr.toNat → ∃ off zs as s', printableFrame d fuel depth (F.all.length + 1) (some y) (some sym) addr c.st =
      .ok ((qualified l nm, off, zs), s') ∧ off.toNat = addr.toNat - sym.toNat ∧ AreEntries d xs uo x zs as ∧ InlineChain d xs uo x addr.toNat (o, e) F as := by
  have hg := igood_history hok hrefs hc
  obtain ⟨uo, x, o, e, h⟩ := holds_good hok hg hy
  refine ⟨uo, x, o, e, h.isEntry, ?_⟩
  intro l nm F addr hd hl hst hF ht
  have e1 : withoutUnions l = l := by
    unfold withoutUnions
    exact List.filter_eq_self.2 (fun p hp => decide_eq_true (hl p hp))
  have hoff : ∃ n, ∀ fuel, n ≤ fuel → ∀ y s, ISt d xs s → RangesRight d xs s → GoodDie d xs s y uo x o e →
      ∃ s', offsetIn d fuel y addr s = .ok (BitVec.allOnes 64, s') ∧ KeptR d xs s s' ∧ RangesRight d xs s' := by
    obtain ⟨n, hn⟩ := offset_unknown hok hrefs hst
    exact ⟨n, fun fuel hf y s hs hr hg => hn fuel hf y s addr hs hr hg⟩
  obtain ⟨n, hn⟩ := frame_built hok hfit hrefs hd hF ht hoff
  refine ⟨n, fun fuel depth sym h1 h2 hle => ?_⟩
  obtain ⟨zs, as, s', k1, k2, k3⟩ := hn fuel depth h1 h2 y c.st (some sym) hg.st (ranges_history hok hfit hrefs hc) h
  refine ⟨addr - sym, zs, as, s', ?_, ?_, k2, k3⟩
  · rw [k1, e1]
    unfold orSymbol
    rw [if_pos rfl]
  · have := addr.isLt
    rw [BitVec.toNat_sub]
    omega

/-- C77 does not hold for an address before the start: a part of the function that was moved to lower addresses, its range not being the first. The offset shown is that far from 2^64. -/
theorem C77_not_before {y : DIE} (hy : c.Holds d y) : ∃ uo x o e, IsEntry d xs y uo x o e ∧ ∀ l nm start F (addr : BitVec 64), DeclaredAs d xs uo x o e l nm →
    StartsAt d xs uo x o e start → start < 2 ^ 64 → addr.toNat + 1 < start → (x.placed uo).KidsOf (o, e) F → (∀ b ∈ (o, e) :: F.all, Told d xs uo x addr.toNat b) →
    ∃ n, ∀ fuel depth sym, n ≤ fuel → n ≤ depth → ∃ text off zs s', printableFrame d fuel depth (F.all.length + 1) (some y) sym addr c.st = .ok ((text, off, zs), s') ∧
      off.toNat = 2 ^ 64 - (start - addr.toNat) := by
  have hg := igood_history hok hrefs hc
  obtain ⟨uo, x, o, e, h⟩ := holds_good hok hg hy
  refine ⟨uo, x, o, e, h.isEntry, ?_⟩
  intro l nm start F addr hd hst hs64 hlt hF ht
  have hoff : ∃ n, ∀ fuel, n ≤ fuel → ∀ y s, ISt d xs s → RangesRight d xs s → GoodDie d xs s y uo x o e →
      ∃ s', offsetIn d fuel y addr s = .ok (addr - BitVec.ofNat 64 start, s') ∧ KeptR d xs s s' ∧ RangesRight d xs s' := by
    obtain ⟨n, hn⟩ := offset_starts hok hfit hrefs hst
    exact ⟨n, fun fuel hf y s hs hr hg => hn fuel hf y s addr hs hr hg⟩
  obtain ⟨n, hn⟩ := frame_built hok hfit hrefs hd hF ht hoff
  refine ⟨n, fun fuel depth sym h1 h2 => ?_⟩
  obtain ⟨zs, as, s', k1, k2, k3⟩ := hn fuel depth h1 h2 y c.st sym hg.st (ranges_history hok hfit hrefs hc) h
  have hw : (addr - BitVec.ofNat 64 start).toNat = 2 ^ 64 - (start - addr.toNat) := by
    have := addr.isLt
    rw [BitVec.toNat_sub, BitVec.toNat_ofNat]
    omega
  have hne : addr - BitVec.ofNat 64 start ≠ BitVec.allOnes 64 := by
    intro hc
    rw [hc, BitVec.toNat_allOnes] at hw
    omega
  refine ⟨qualified (withoutUnions l) nm, addr - BitVec.ofNat 64 start, zs, s', ?_, hw⟩
  rw [k1]
  unfold orSymbol
  rw [if_neg hne]

end

/-! ### A unit with members of a class and of a union -/

def nameRoot : DieEntry := ⟨⟨1, 0x11, true, []⟩, []⟩
def nameSpace : DieEntry := ⟨⟨2, 0x39, true, [⟨3, 0x08, 0⟩]⟩, [.str [0x6e]]⟩
def nameClass : DieEntry := ⟨⟨3, 0x02, true, [⟨3, 0x08, 0⟩]⟩, [.str [0x43]]⟩
def nameUnion : DieEntry := ⟨⟨4, 0x17, true, [⟨3, 0x08, 0⟩]⟩, [.str [0x55]]⟩
/-- A declaration, or a function about which nothing else is said. -/
def nameDecl (c : Byte) : DieEntry := ⟨⟨5, 0x2e, false, [⟨3, 0x08, 0⟩]⟩, [.str [c]]⟩
/-- The definition of the member of the class, with ranges, -/
def nameRanged : DieEntry := ⟨⟨6, 0x2e, false, [⟨0x47, 0x11, 0⟩, ⟨0x55, 0x17, 0⟩]⟩, [.num 18, .num 0]⟩
/-- and of that of the union, with a low and a high address. -/
def nameLow : DieEntry := ⟨⟨7, 0x2e, false, [⟨0x47, 0x11, 0⟩, ⟨0x11, 0x01, 0⟩, ⟨0x12, 0x0b, 0⟩]⟩, [.num 25, .num 0x4000, .num 0x10]⟩
def nameDecls : List DieDecl := [nameRoot.decl, nameSpace.decl, nameClass.decl, nameUnion.decl, (nameDecl 0).decl, nameRanged.decl, nameLow.decl]

/-- `namespace n { class C { f }; union U { g }; }`, the definitions of `f` and `g`, and a function `h`. -/
def nameUnit : DieUnit := ⟨false, 4, 0, 8, [], 0, nameDecls,
  ⟨nameRoot, some (.node nameSpace (.node nameClass (.leaf (nameDecl 0x66) .done) (.node nameUnion (.leaf (nameDecl 0x67) .done) .done))
    (.leaf nameRanged (.leaf nameLow (.leaf (nameDecl 0x68) .done))))⟩, []⟩

/-- The second range is before the first. -/
def nameRanges : List OldRange := [.range 0x3000 0x3010, .range 0x2000 0x2008]

def nameSections : Sections := ⟨encodeUnits [nameUnit], encodeDecls nameDecls, [], [], encodeOldRanges nameRanges, [], none, none⟩

def nameTop : Forest (Nat × DieEntry) :=
  .node (12, nameSpace) (.node (15, nameClass) (.leaf (18, nameDecl 0x66) .done) (.node (22, nameUnion) (.leaf (25, nameDecl 0x67) .done) .done))
    (.leaf (30, nameRanged) (.leaf (36, nameLow) (.leaf (47, nameDecl 0x68) .done)))

theorem name_placed : nameUnit.placed 0 = ⟨(11, nameRoot), some nameTop⟩ := by
  simp [nameUnit, nameTop, nameRoot, nameSpace, nameClass, nameUnion, nameDecl, nameRanged, nameLow, DieUnit.sizes, DieUnit.rootPos, DieUnit.lengthField,
      DieUnit.header, DieUnit.offSize, DieUnit.placed, DieTree.place, Forest.place, Forest.encode, DieEntry.encode, encodeVals, formKind,
      FormKind.encode, encodeU_small, leBytes_length]

def nameAll : List (Nat × DieEntry) := [(11, nameRoot), (12, nameSpace), (15, nameClass), (18, nameDecl 0x66), (22, nameUnion), (25, nameDecl 0x67), (30, nameRanged), (36, nameLow), (47, nameDecl 0x68)]

theorem name_entries {uo : Nat} {x : DieUnit} {o : Nat} {e : DieEntry} : EntryIn [nameUnit] uo x o e ↔ uo = 0 ∧ x = nameUnit ∧ (o, e) ∈ nameAll := by
  have hp : (nameUnit.placed 0).all = nameAll := by rw [name_placed]; rfl
  unfold EntryIn
  rw [placeUnits, placeUnits]
  constructor
  · rintro ⟨h1, h2⟩
    simp only [List.mem_cons, List.not_mem_nil, or_false, Prod.mk.injEq] at h1
    obtain ⟨rfl, rfl⟩ := h1
    rw [hp] at h2
    exact ⟨rfl, rfl, h2⟩
  · rintro ⟨rfl, rfl, h⟩
    exact ⟨by simp, by rw [hp]; exact h⟩

theorem name_mem : (0, nameUnit) ∈ placeUnits 0 [nameUnit] := by simp [placeUnits]

theorem name_ok : InfoOk nameSections [nameUnit] ∧ RefsOk [nameUnit] ∧ SectionsFit nameSections := by
  refine ⟨⟨rfl, ?_, ?_, ?_, ?_⟩, ?_, ⟨by decide, by decide, by decide, by decide, (fun _ h => nomatch h), fun _ h => nomatch h⟩⟩
  · intro x hx
    simp only [List.mem_cons, List.not_mem_nil, or_false] at hx
    subst hx
    refine ⟨⟨by decide, (fun h => by revert h; decide), by decide, (fun h => by cases h), by decide, ?_, by decide, ?_⟩, ?_, by decide, (fun h => by cases h)⟩
    · intro a ha
      simp only [nameUnit, nameDecls, nameRoot, nameSpace, nameClass, nameUnion, nameDecl, nameRanged, nameLow, List.mem_cons, List.not_mem_nil, or_false] at ha
      rcases ha with rfl | rfl | rfl | rfl | rfl | rfl | rfl <;> refine ⟨by decide, by decide, ?_⟩ <;> intro b hb <;>
        simp only [List.mem_cons, List.not_mem_nil, or_false] at hb
      · subst hb; exact ⟨by decide, by decide, by decide⟩
      · subst hb; exact ⟨by decide, by decide, by decide⟩
      · subst hb; exact ⟨by decide, by decide, by decide⟩
      · subst hb; exact ⟨by decide, by decide, by decide⟩
      · rcases hb with rfl | rfl <;> exact ⟨by decide, by decide, by decide⟩
      · rcases hb with rfl | rfl | rfl <;> exact ⟨by decide, by decide, by decide⟩
    · simp [nameUnit, nameDecls, nameRoot, nameSpace, nameClass, nameUnion, nameDecl, nameRanged, nameLow, DieUnit.sizes, DieUnit.rootPos, DieUnit.lengthField,
        DieUnit.header, DieUnit.offSize, DieTree.WF, Forest.WF, ValsFit, AttrFits, DieTree.encode, Forest.encode, DieEntry.encode, encodeVals, formKind,
        FormKind.encode, FormKind.Fits, IsLocalRef, encodeU_small, leBytes_length, GoodName]
    · simp [nameUnit, nameRoot, nameSpace, nameClass, nameUnion, nameDecl, nameRanged, nameLow, DieUnit.body, DieUnit.sizes, DieTree.encode, Forest.encode,
        DieUnit.header, DieUnit.offSize, DieEntry.encode, encodeVals, formKind, FormKind.encode, encodeU_small, leBytes_length]
  · intro x hx
    simp only [List.mem_cons, List.not_mem_nil, or_false] at hx
    subst hx; exact ⟨[], by simp [nameUnit, nameSections]⟩
  · simp [nameSections, encodeUnits, nameUnit, nameRoot, nameSpace, nameClass, nameUnion, nameDecl, nameRanged, nameLow, DieUnit.encode, DieUnit.body, DieUnit.sizes, DieUnit.lengthField,
      DieTree.encode, Forest.encode, DieUnit.header, DieUnit.offSize, DieEntry.encode, encodeVals, formKind, FormKind.encode, encodeU_small, leBytes_length]
  · simp [nameSections, encodeDecls, nameDecls, nameRoot, nameSpace, nameClass, nameUnion, nameDecl, nameRanged, nameLow, DieDecl.encode, AttrDecl.encode, encodeU_small]
  · intro uo x o e he i a v o' ha hv hn hr
    obtain ⟨n, rfl, hr⟩ := hr
    obtain ⟨rfl, rfl, h⟩ := name_entries.1 he
    have hm := List.mem_of_getElem? ha
    simp only [nameAll, List.mem_cons, List.not_mem_nil, or_false, Prod.mk.injEq] at h
    have hf : IsLocalRef a.form ∨ a.form = 0x10 := by
      rcases hr with ⟨h, _⟩ | ⟨h, _⟩
      · exact .inl h
      · exact .inr h
    rcases h with ⟨rfl, rfl⟩ | ⟨rfl, rfl⟩ | ⟨rfl, rfl⟩ | ⟨rfl, rfl⟩ | ⟨rfl, rfl⟩ | ⟨rfl, rfl⟩ | ⟨rfl, rfl⟩ | ⟨rfl, rfl⟩ | ⟨rfl, rfl⟩
    case inr.inr.inr.inr.inr.inr.inl =>
      rcases i with _ | _ | i
      · injection ha with ha; subst ha
        injection hv with hv; injection hv with hv; subst hv
        rcases hr with ⟨_, rfl⟩ | ⟨h, _⟩
        · exact ⟨0, nameUnit, nameDecl 0x66, name_entries.2 ⟨rfl, rfl, by simp [nameAll]⟩⟩
        · cases h
      · injection ha with ha; subst ha; simp [IsLocalRef] at hf
      · cases ha
    case inr.inr.inr.inr.inr.inr.inr.inl =>
      rcases i with _ | _ | _ | i
      · injection ha with ha; subst ha
        injection hv with hv; injection hv with hv; subst hv
        rcases hr with ⟨_, rfl⟩ | ⟨h, _⟩
        · exact ⟨0, nameUnit, nameDecl 0x67, name_entries.2 ⟨rfl, rfl, by simp [nameAll]⟩⟩
        · cases h
      · injection ha with ha; subst ha; simp [IsLocalRef] at hf
      · injection ha with ha; subst ha; simp [IsLocalRef] at hf
      · cases ha
    all_goals
      exfalso
      simp only [nameRoot, nameSpace, nameClass, nameUnion, nameDecl, List.mem_cons, List.not_mem_nil, or_false] at hm <;> (subst hm; simp [IsLocalRef] at hf)

theorem name_parent {po o : Nat} {pe e : DieEntry} (h : ((po, pe), (o, e)) ∈ nameTop.withParent (11, nameRoot)) : ParentOf nameUnit 0 po pe o e := by
  unfold ParentOf; rw [name_placed]; exact h

theorem name_direct {c t : Nat} {k : Bool} {n : List Byte} (hn : GoodName n) : NameOf nameSections nameUnit ⟨⟨c, t, k, [⟨3, 0x08, 0⟩]⟩, [.str n]⟩ n :=
  .named (i := 0) rfl rfl rfl (.direct rfl hn)

theorem name_scope : Scopes nameSections [nameUnit] 0 nameUnit 12 nameSpace [(0x39, [0x6e])] :=
  .scope (l := []) name_mem (name_parent List.mem_cons_self) ⟨rfl, rfl⟩ rfl (name_direct (by unfold GoodName; decide)) (.unit (name_entries.2 ⟨rfl, rfl, by simp [nameAll]⟩) ⟨rfl, rfl⟩ rfl)

/-- The definition of `f` is that of `n::C::f`, that of `g` that of `n::U::g`, and `h` is `h`. -/
theorem name_declared : DeclaredAs nameSections [nameUnit] 0 nameUnit 30 nameRanged [(0x39, [0x6e]), (0x02, [0x43])] [0x66] ∧
    DeclaredAs nameSections [nameUnit] 0 nameUnit 36 nameLow [(0x39, [0x6e]), (0x17, [0x55])] [0x67] ∧
    DeclaredAs nameSections [nameUnit] 0 nameUnit 47 (nameDecl 0x68) [] [0x68] := by
  refine ⟨?_, ?_, ?_⟩
  · refine .link (name_entries.2 ⟨rfl, rfl, by simp [nameAll]⟩) (.specification (o' := 18) (e' := nameDecl 0x66) ⟨0, _, _, rfl, rfl, rfl, 18, rfl, .inl ⟨by unfold IsLocalRef; decide, rfl⟩⟩
      (name_entries.2 ⟨rfl, rfl, by simp [nameAll]⟩)) ?_
    exact .here name_mem (name_parent (po := 15) (pe := nameClass) (by simp [nameTop, Forest.withParent])) ⟨rfl, rfl⟩ rfl (name_direct (by unfold GoodName; decide))
      (.scope (l := [(0x39, [0x6e])]) name_mem (name_parent (po := 12) (pe := nameSpace) (by simp [nameTop, Forest.withParent])) ⟨rfl, rfl⟩ rfl (name_direct (by unfold GoodName; decide)) name_scope)
  · refine .link (name_entries.2 ⟨rfl, rfl, by simp [nameAll]⟩) (.specification (o' := 25) (e' := nameDecl 0x67) ⟨0, _, _, rfl, rfl, rfl, 25, rfl, .inl ⟨by unfold IsLocalRef; decide, rfl⟩⟩
      (name_entries.2 ⟨rfl, rfl, by simp [nameAll]⟩)) ?_
    exact .here name_mem (name_parent (po := 22) (pe := nameUnion) (by simp [nameTop, Forest.withParent])) ⟨rfl, rfl⟩ rfl (name_direct (by unfold GoodName; decide))
      (.scope (l := [(0x39, [0x6e])]) name_mem (name_parent (po := 12) (pe := nameSpace) (by simp [nameTop, Forest.withParent])) ⟨rfl, rfl⟩ rfl (name_direct (by unfold GoodName; decide)) name_scope)
  · exact .here name_mem (name_parent (po := 11) (pe := nameRoot) (by simp [nameTop, Forest.withParent])) ⟨rfl, rfl⟩ rfl (name_direct (by unfold GoodName; decide))
      (.unit (name_entries.2 ⟨rfl, rfl, by simp [nameAll]⟩) ⟨rfl, rfl⟩ rfl)

/-- `C76_name_partial` and `C76_not_union` apply: the first function is shown as "n::C::f", the second as "n::g". -/
theorem C76_example : (∃ y s, infoOffsetToDIE nameSections 30 IState.empty = .ok (y, s) ∧ ∃ n, ∀ fuel depth, n ≤ fuel → n ≤ depth →
      ∃ s', qualifiedName nameSections fuel depth y s = .ok ([0x6e, 0x3a, 0x3a, 0x43, 0x3a, 0x3a, 0x66], s')) ∧
    (∃ y s, infoOffsetToDIE nameSections 36 IState.empty = .ok (y, s) ∧ ∃ n, ∀ fuel depth, n ≤ fuel → n ≤ depth →
      ∃ s', qualifiedName nameSections fuel depth y s = .ok ([0x6e, 0x3a, 0x3a, 0x67], s')) := by
  constructor
  · obtain ⟨y, s, h1, h2, h3, h4⟩ := C56_find name_ok.1 name_ok.2.1 .start (name_entries.2 ⟨rfl, rfl, by simp [nameAll]⟩ : EntryIn _ 0 nameUnit 30 nameRanged)
    refine ⟨y, s, h1, ?_⟩
    obtain ⟨uo, x, o, e, g1, g2⟩ := C76_name_partial name_ok.1 name_ok.2.2 name_ok.2.1 h3 h4
    have ho : o = 30 := by rw [← g1.2.1, h2.2.1]
    subst ho
    obtain ⟨rfl, rfl, he⟩ := name_entries.1 g1.2.2
    simp [nameAll] at he
    subst he
    exact g2 _ _ name_declared.1 (by decide)
  · obtain ⟨y, s, h1, h2, h3, h4⟩ := C56_find name_ok.1 name_ok.2.1 .start (name_entries.2 ⟨rfl, rfl, by simp [nameAll]⟩ : EntryIn _ 0 nameUnit 36 nameLow)
    refine ⟨y, s, h1, ?_⟩
    obtain ⟨uo, x, o, e, g1, g2⟩ := C76_not_union name_ok.1 name_ok.2.2 name_ok.2.1 h3 h4
    have ho : o = 36 := by rw [← g1.2.1, h2.2.1]
    subst ho
    obtain ⟨rfl, rfl, he⟩ := name_entries.1 g1.2.2
    simp [nameAll] at he
    subst he
    exact g2 _ _ name_declared.2.1

theorem name_ranges : EntryRanges nameSections [nameUnit] 0 nameUnit 30 nameRanged [(0x3000, 0x3010), (0x2000, 0x2008)] := by
  refine ⟨1, 0, 0, rfl, ⟨_, _, rfl, rfl, .offset rfl (by decide)⟩, by decide, .inr ⟨⟨rfl, rfl, rfl⟩, rfl⟩, .inl ⟨by decide, nameRanges, [], ?_, ?_, rfl⟩, .inr ?_⟩
  · simp [nameSections]
  · simp [OldRangesOk, nameRanges]
  · exact .specification (o' := 18) (e' := nameDecl 0x66) rfl rfl ⟨0, _, _, rfl, rfl, rfl, 18, rfl, .inl ⟨by unfold IsLocalRef; decide, rfl⟩⟩ (name_entries.2 ⟨rfl, rfl, by simp [nameAll]⟩) (by decide) (.nowhere rfl rfl rfl)

theorem name_low_none : Inherits [nameUnit] 0x11 0 30 nameRanged none :=
  .specification (o' := 18) (e' := nameDecl 0x66) rfl rfl ⟨0, _, _, rfl, rfl, rfl, 18, rfl, .inl ⟨by unfold IsLocalRef; decide, rfl⟩⟩ (name_entries.2 ⟨rfl, rfl, by simp [nameAll]⟩) (by decide) (.nowhere rfl rfl rfl)

/-- The entry with ranges says of 0x3004 and of 0x2004 that it has them. -/
theorem name_told {addr : Nat} (h : addr = 0x3004 ∨ addr = 0x2004) : Told nameSections [nameUnit] 0 nameUnit addr (30, nameRanged) := by
  refine ⟨.inl (.inr ⟨_, name_ranges, .inl rfl, ?_⟩), ?_⟩
  · rcases h with rfl | rfl
    · exact ⟨(0x3000, 0x3010), by simp, by decide, by decide⟩
    · exact ⟨(0x2000, 0x2008), by simp, by decide, by decide⟩
  · intro l hl r hr
    -- the list is the one it has
    obtain ⟨y, s, h1, h2, h3, h4⟩ := C56_find name_ok.1 name_ok.2.1 .start (name_entries.2 ⟨rfl, rfl, by simp [nameAll]⟩ : EntryIn _ 0 nameUnit 30 nameRanged)
    obtain ⟨uo, x, o, e, g1, g2⟩ := C26_ranges name_ok.1 name_ok.2.1 h3 name_ok.2.2 h4
    have ho : o = 30 := by rw [← g1.2.1, h2.2.1]
    subst ho
    obtain ⟨rfl, rfl, he⟩ := name_entries.1 g1.2.2
    simp [nameAll] at he
    subst he
    obtain ⟨n, hn⟩ := g2 _ name_ranges
    obtain ⟨m, hm⟩ := g2 _ hl
    obtain ⟨s1, k1⟩ := hn (n + m) (by omega)
    obtain ⟨s2, k2⟩ := hm (n + m) (by omega)
    rw [k1] at k2
    injection k2 with k2; injection k2 with k2 _; injection k2 with k2
    subst k2
    simp only [List.mem_cons, List.not_mem_nil, or_false] at hr
    rcases hr with rfl | rfl <;> rcases h with rfl | rfl <;> decide

/-- C77 applies: 0x3004 is shown as `n::C::f+4`; 0x2004, in the second part of the function, as `n::C::f+18446744073709547524` (`C77_not_before`). -/
theorem C77_example : ∃ y s, infoOffsetToDIE nameSections 30 IState.empty = .ok (y, s) ∧ ∃ n, ∀ fuel depth, n ≤ fuel → n ≤ depth →
      (∃ zs s', printableFrame nameSections fuel depth 1 (some y) none 0x3004 s = .ok (([0x6e, 0x3a, 0x3a, 0x43, 0x3a, 0x3a, 0x66], 4, zs), s')) ∧
      ∃ text zs s', printableFrame nameSections fuel depth 1 (some y) none 0x2004 s = .ok ((text, 0xfffffffffffff004#64, zs), s') := by
  obtain ⟨y, s, h1, h2, h3, h4⟩ := C56_find name_ok.1 name_ok.2.1 .start (name_entries.2 ⟨rfl, rfl, by simp [nameAll]⟩ : EntryIn _ 0 nameUnit 30 nameRanged)
  refine ⟨y, s, h1, ?_⟩
  obtain ⟨uo, x, o, e, g1, g2⟩ := C77_frame_partial name_ok.1 name_ok.2.2 name_ok.2.1 h3 h4
  have ho : o = 30 := by rw [← g1.2.1, h2.2.1]
  subst ho
  obtain ⟨rfl, rfl, he⟩ := name_entries.1 g1.2.2
  simp [nameAll] at he
  subst he
  obtain ⟨uo, x, o, e, g1', g2'⟩ := C77_not_before name_ok.1 name_ok.2.2 name_ok.2.1 h3 h4
  have ho : o = 30 := by rw [← g1'.2.1, h2.2.1]
  subst ho
  obtain ⟨rfl, rfl, he⟩ := name_entries.1 g1'.2.2
  simp [nameAll] at he
  subst he
  have hk : (nameUnit.placed 0).KidsOf (30, nameRanged) .done := by rw [name_placed]; exact .under (.afterNode .leaf)
  obtain ⟨n, hn⟩ := g2 _ _ 0x3000 .done 0x3004 name_declared.1 (by decide) (.range name_low_none name_ranges) (by decide) (by decide) hk
    (fun b hb => by simp [Forest.all, Forest.firsts] at hb; subst hb; exact name_told (.inl rfl))
  obtain ⟨m, hm⟩ := g2' _ _ 0x3000 .done 0x2004 name_declared.1 (.range name_low_none name_ranges) (by decide) (by decide) hk
    (fun b hb => by simp [Forest.all, Forest.firsts] at hb; subst hb; exact name_told (.inr rfl))
  refine ⟨n + m, fun fuel depth k1 k2 => ⟨?_, ?_⟩⟩
  · obtain ⟨off, zs, as, s', j1, j2, _⟩ := hn fuel depth none (by omega) (by omega)
    have : off = 4 := BitVec.eq_of_toNat_eq (by rw [j2]; decide)
    subst this
    exact ⟨zs, s', j1⟩
  · obtain ⟨text, off, zs, s', j1, j2⟩ := hm fuel depth none (by omega) (by omega)
    have : off = 0xfffffffffffff004#64 := BitVec.eq_of_toNat_eq (by rw [j2]; decide)
    subst this
    exact ⟨text, zs, s', j1⟩

/-- `C77_symbol_partial` applies: `h` does not say where it is; with a symbol at 0x5000, 0x5010 is `h+16`. -/
theorem C77_symbol_example : ∃ y s, infoOffsetToDIE nameSections 47 IState.empty = .ok (y, s) ∧ ∃ n, ∀ fuel depth, n ≤ fuel → n ≤ depth →
    ∃ zs s', printableFrame nameSections fuel depth 1 (some y) (some 0x5000) 0x5010 s = .ok (([0x68], 16, zs), s') := by
  obtain ⟨y, s, h1, h2, h3, h4⟩ := C56_find name_ok.1 name_ok.2.1 .start (name_entries.2 ⟨rfl, rfl, by simp [nameAll]⟩ : EntryIn _ 0 nameUnit 47 (nameDecl 0x68))
  refine ⟨y, s, h1, ?_⟩
  obtain ⟨uo, x, o, e, g1, g2⟩ := C77_symbol_partial name_ok.1 name_ok.2.2 name_ok.2.1 h3 h4
  have ho : o = 47 := by rw [← g1.2.1, h2.2.1]
  subst ho
  obtain ⟨rfl, rfl, he⟩ := name_entries.1 g1.2.2
  simp [nameAll] at he
  subst he
  have hk : (nameUnit.placed 0).KidsOf (47, nameDecl 0x68) .done := by rw [name_placed]; exact .under (.afterNode (.afterLeaf (.afterLeaf .leaf)))
  obtain ⟨n, hn⟩ := g2 _ _ .done 0x5010 name_declared.2.2 (by decide) ⟨.nowhere rfl rfl rfl, .nowhere rfl rfl rfl⟩ hk
    (fun b hb => by
      simp [Forest.all, Forest.firsts] at hb; subst hb
      refine ⟨.inr (.inr ⟨.inl rfl, .nowhere rfl rfl rfl⟩), ?_⟩
      rintro l ⟨i, _, _, h, _⟩
      cases h)
  refine ⟨n, fun fuel depth k1 k2 => ?_⟩
  obtain ⟨off, zs, as, s', j1, j2, _⟩ := hn fuel depth 0x5000 k1 k2 (by decide)
  have : off = 16 := BitVec.eq_of_toNat_eq (by rw [j2]; decide)
  subst this
  exact ⟨zs, s', j1⟩

end Pstack.Props
