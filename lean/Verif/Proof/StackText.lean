import Verif.Model.StackText
import Verif.Spec.StackText
import Verif.Proof.DieName
import Verif.Proof.ArgList
import Verif.Props.Lines
/-
Lemmas for C80 and C81: the text of a stack.
-/
namespace Pstack.Props
open Pstack.Reader Pstack.Spec Pstack.Dwarf Pstack.Die Pstack.Args Pstack.Lines Pstack.StackText

/-! ### Numbers -/

def hexDigits (k n : Nat) : List Char := (List.range k).map (fun i => Nat.digitChar (n / 16 ^ (k - 1 - i) % 16))

theorem hexDigits_succ (k n : Nat) : hexDigits (k + 1) n = hexDigits k (n / 16) ++ [Nat.digitChar (n % 16)] := by
  unfold hexDigits
  rw [List.range_succ, List.map_append]
  congr 1
  · apply List.map_congr_left
    intro i hi
    have hi := List.mem_range.1 hi
    rw [Nat.div_div_eq_div_mul, show k + 1 - 1 - i = (k - 1 - i) + 1 by omega, Nat.pow_succ, Nat.mul_comm 16]
  · simp

theorem hexDigits_pad (k n : Nat) (h : n < 16 ^ (k + 1)) : List.replicate (k + 1 - (Nat.toDigits 16 n).length) '0' ++ Nat.toDigits 16 n = hexDigits (k + 1) n := by
  induction k generalizing n with
  | zero =>
    have h' : n < 16 := by simpa using h
    rw [Nat.toDigits_of_lt_base h']
    simp [hexDigits, Nat.mod_eq_of_lt h']
  | succ k ih =>
    have hd : n / 16 < 16 ^ (k + 1) := by
      rw [Nat.div_lt_iff_lt_mul (by decide), ← Nat.pow_succ]; exact h
    rw [hexDigits_succ, ← ih _ hd]
    by_cases hn : n < 16
    · have e0 : n / 16 = 0 := by omega
      rw [Nat.toDigits_of_lt_base hn, e0, Nat.toDigits_zero, Nat.mod_eq_of_lt hn]
      simp only [List.length_cons, List.length_nil]
      rw [show k + 1 + 1 - (0 + 1) = (k + 1 - (0 + 1)) + 1 by omega, List.replicate_succ']
    · rw [Nat.toDigits_of_base_le (by decide) (by omega : 16 ≤ n), List.length_append]
      simp only [List.length_cons, List.length_nil]
      rw [show k + 1 + 1 - ((Nat.toDigits 16 (n / 16)).length + (0 + 1)) = k + 1 - (Nat.toDigits 16 (n / 16)).length by omega, List.append_assoc]

theorem hexPadded_16 (w : BitVec 64) : hexPadded 16 w.toNat = hex16 w.toNat := by
  have h := hexDigits_pad 15 w.toNat w.isLt
  have := congrArg (List.map (fun c : Char => BitVec.ofNat 8 c.toNat)) h
  rw [List.map_append, List.map_replicate] at this
  unfold hexPadded say
  simp only [String.toList_ofList, List.length_map]
  refine this.trans ?_
  unfold hexDigits hex16
  rw [List.map_map]
  rfl

theorem hexPadded_0 (n : Nat) : hexPadded 0 n = hexDigitText n := by
  unfold hexPadded
  simp only [Nat.zero_sub, List.replicate_zero, List.nil_append]
  rfl

theorem numberText_eq (n : Nat) : numberText n = frameNumber n := by
  have hl : (Nat.toDigits 10 n).length = (dec n).length := by
    show _ = (List.map _ (toString (Int.ofNat n)).toList).length
    rw [List.length_map, show toString (Int.ofNat n) = n.repr from rfl, Nat.toList_repr]
  unfold numberText frameNumber padded
  rw [← hl]
  show say "#" ++ (dec n ++ _ ++ say " ") = say "#" ++ (dec n ++ (_ ++ say " "))
  rw [List.append_assoc]
  by_cases h : n < 10
  · rw [if_pos h, Nat.toDigits_of_lt_base h]; rfl
  · have := Nat.length_toDigits_le_iff (b := 10) (n := n) (k := 1) (by decide) (by decide)
    rw [if_neg h, show 2 - (Nat.toDigits 10 n).length = 0 by omega]; rfl

theorem inlined_width : padded 18 (say "inlined") ++ say " in " = asciiText "inlined            in " := by decide +kernel

section
variable {d : Sections} {xs : List DieUnit} (hok : InfoOk d xs)
include hok

/-! ### The files of a unit -/

/-- `getLines`. -/
theorem unitLines_spec {q : ObjDwarf} (hq : q.d = d) {sec : List Byte} (hsec : q.line = some sec) (hw : sec.length < W64) {x : DieUnit} {t : LineTable} (hl : LinesOf d sec x t) (hp : t.Plain Supported)
    {s : IState} (hs : ISt d xs s) {uo : Nat} (hx : (uo, x) ∈ placeUnits 0 xs) {u : Die.Unit} (hu : openUnit d.info d.abbr uo = .ok u) {fuel : Nat} (h1 : 1 ≤ fuel) :
    ∃ s', unitLines q fuel u s = .ok (some (t.tables.dirNames, fileTable t.tables), s') ∧ Kept d xs s s' := by
  obtain ⟨l1, l2, l3, i, a, v, n, rest, l4, l5, l6, l7, l8⟩ := hl
  obtain ⟨p1, p2, p3, p4⟩ := hp
  obtain ⟨y, s1, g1, g2, g3⟩ := root_good hok hs hx hu
  obtain ⟨r, r1, r2, _⟩ := good_raw hok g2.1 g3
  obtain ⟨w, w1, w2⟩ := toInt_spec hok g2.1 g3 l5 l6 l7
  have hn : w.toNat = n := by
    have h2 := BitVec.toInt_eq_toNat_cond w
    have h3 := w.isLt
    rw [w2] at h2
    change (n : Int) = _ at h2
    split at h2 <;> omega
  obtain ⟨u', T, hop⟩ := opened hok hx
  have : u' = u := by have := hop.isOpen; rw [hu] at this; injection this with this; exact this.symm
  subst this
  obtain ⟨rows, hb, _⟩ := build_table sec hw ⟨u'.dwarfLen, d.lineStr, d.str, q.strx⟩ t l2 (by
    intro h5
    have h6 := l3 h5
    show u'.dwarfLen = _
    rw [hop.sizes.len, if_neg (by simp only [DieUnit.sizes]; omega), LineTable.width, h6.1]
    rfl) p4 n rest l8 p1 p2 p3
  refine ⟨s1, ?_, g2⟩
  unfold unitLines linesAt
  rw [g1, Res.bind_ok]
  simp only
  rw [r1, Res.bind_ok, if_pos (by
    rw [r2]
    unfold isUnitTag at l1
    simp only [Bool.or_eq_true, decide_eq_true_eq] at l1
    exact l1.symm)]
  rw [hq, getAttr_own hok g2.1 g3 l4 h1 false, Res.bind_ok]
  simp only
  rw [w1, Res.bind_ok, hsec, hn]
  simp only
  rw [hb]
  rfl

omit hok in
/-- Numbers of directories. -/
theorem dir_small {lineStr str : List Byte} {w n : Nat} {t : LineTables} (ht : t.WF lineStr str w) {f : SourceFile} {dir : List Byte} (hf : t.file n = some f) (hd : t.dirNames[f.dir]? = some dir) :
    f.dir < 2 ^ 32 := by
  cases t with
  | v4 a b =>
    cases n with
    | zero => cases hf
    | succ n =>
      have hf : (b.map (·.file))[n]? = some f := hf
      obtain ⟨g, hg, rfl⟩ := List.mem_map.1 (List.mem_of_getElem? hf)
      exact (ht.2 g hg).2.2.1
  | v5 a b c d e =>
    have h := (List.getElem?_eq_some_iff.1 hd).1
    have h2 : (c.map (·.file.name)).length = c.length := List.length_map ..
    have h3 : c.length < 2 ^ 31 := ht.2.2.1
    have h4 : f.dir < (c.map (·.file.name)).length := h
    omega

/-- Where an inlined function is called. -/
theorem int_of {p : EntryRef} {name : Nat} {z : Int} (hn : name ≠ 0x3c ∧ name ≠ 0x31 ∧ name ≠ 0x47) (h : IntOf xs p name z) :
    ∃ m, ∀ fuel, m ≤ fuel → ∀ y s, ISt d xs s → IsRef d xs s y p → ∃ a w s1, getAttr d fuel y name false s = .ok (a, s1) ∧ toInt a s1 = .ok w ∧ w.toInt = z ∧ Kept d xs s s1 := by
  obtain ⟨uo, x, o, e, i, a, v, h1, q1, q2, q3⟩ := h
  obtain ⟨m, hm⟩ := getAttr_inherits hok (d := d) hn h1
  refine ⟨m, fun fuel hf y s hs hg => ?_⟩
  obtain ⟨a', s1, g1, g2, g3, z', rfl, g4, _⟩ := hm fuel y p.x s hf hs hg
  obtain ⟨w, k1, k2⟩ := toInt_spec hok g2 g4 q1 q2 q3
  exact ⟨_, w, s1, g1, k1, k2, g2, g3⟩

/-- The source line of the code. -/
def SrcIs (a : Src) (p : SourceLine) : Prop := a.1 = p.file ∧ a.2.toInt = p.line

omit hok in
theorem atText_eq {a : Src} {p : SourceLine} (h : SrcIs a p) : atText a = p.text := by
  unfold atText SourceLine.text
  rw [h.1, h.2]; rfl

theorem callSite_spec {q : ObjDwarf} (hq : q.d = d) {t : LineTables} {lineStr str : List Byte} {w' : Nat} (ht : t.WF lineStr str w') {detail : Bool} {p : EntryRef} {l : SourceLine} (h : CalledAt xs t detail p l) :
    ∃ m, ∀ fuel, m ≤ fuel → ∀ y s, ISt d xs s → IsRef d xs s y p →
      ∃ src s', callSite q fuel detail (t.dirNames, fileTable t) y s = .ok (src, s') ∧ SrcIs src l ∧ Kept d xs s s' := by
  obtain ⟨n, f, dir, c1, c2, c3, c4, c5, c6, c7⟩ := h
  obtain ⟨m1, h1⟩ := int_of hok (by decide) c1
  obtain ⟨m2, h2⟩ := int_of hok (by decide) c5
  refine ⟨m1 + m2, fun fuel hf y s hs hg => ?_⟩
  obtain ⟨a, w, s1, k1, k2, k3, k4⟩ := h1 fuel (by omega) y s hs hg
  obtain ⟨b, v, s2, j1, j2, j3, j4⟩ := h2 fuel (by omega) y s1 k4.1 (GoodDie.ext hg k4.2)
  refine ⟨(l.file, v.setWidth 32), s2, ?_, ⟨rfl, ?_⟩, k4.trans j4⟩
  rotate_left
  · show (v.setWidth 32).toInt = l.line
    rw [BitVec.toInt_setWidth, ← j3]
    have h1 := BitVec.toInt_eq_toNat_cond v
    have h2 := v.isLt
    rw [j3] at h1 ⊢
    have e : Int.bmod (v.toNat : Int) (2 ^ 32) = Int.bmod l.line (2 ^ 32) := by
      rw [← j3, BitVec.toInt_eq_toNat_bmod, Int.bmod_bmod_of_dvd (by decide)]
    rw [e]
    exact Int.bmod_eq_of_le (by omega) (by omega)
  have hn : w.toNat = n := by
    have h2 := BitVec.toInt_eq_toNat_cond w
    have h3 := w.isLt
    rw [k3] at h2
    change (n : Int) = _ at h2
    split at h2 <;> omega
  have hd : f.dir < 2 ^ 32 := dir_small ht c2 c3
  unfold callSite fileOf
  rw [hq, k1, Res.bind_ok]
  simp only
  rw [k2, Res.bind_ok, hn, fileTable_file t n f c2]
  simp only
  rw [BitVec.toNat_ofNat, Nat.mod_eq_of_lt hd, c3]
  simp only
  rw [Res.bind_ok, j1, Res.bind_ok]
  simp only
  rw [j2, Res.bind_ok]
  unfold fileName
  rw [c4]
  rfl

/-! ### Inlined functions -/

omit hok in
theorem goodDies_append {s : IState} {uo : Nat} {x : DieUnit} : ∀ {zs zs' : List DIE} {as as' : List (Nat × DieEntry)}, GoodDies d xs s uo x zs as → GoodDies d xs s uo x zs' as' →
    GoodDies d xs s uo x (zs ++ zs') (as ++ as')
  | [], _, [], _, _, h => h
  | _ :: _, _, _ :: _, _, h, h' => ⟨h.1, goodDies_append h.2 h'⟩
  | [], _, _ :: _, _, h, _ => h.elim
  | _ :: _, _, [], _, h, _ => h.elim

omit hok in
theorem goodDies_reverse {s : IState} {uo : Nat} {x : DieUnit} : ∀ {zs : List DIE} {as : List (Nat × DieEntry)}, GoodDies d xs s uo x zs as → GoodDies d xs s uo x zs.reverse as.reverse
  | [], [], _ => trivial
  | _ :: _, _ :: _, h => by
    rw [List.reverse_cons, List.reverse_cons]
    exact goodDies_append (goodDies_reverse h.2) ⟨h.1, trivial⟩
  | [], _ :: _, h => h.elim
  | _ :: _, [], h => h.elim

omit hok in
theorem inlinedAs_append {t : LineTables} {detail : Bool} {uo : Nat} {x : DieUnit} {as as' : List (Nat × DieEntry)} {is is' : List InlinedFn} (h : InlinedAs d xs t detail uo x as is)
    (h' : InlinedAs d xs t detail uo x as' is') : InlinedAs d xs t detail uo x (as ++ as') (is ++ is') := by
  induction h with
  | nil => exact h'
  | cons a b c e _ ih => exact .cons a b c e ih

omit hok in
theorem inlinedAs_reverse {t : LineTables} {detail : Bool} {uo : Nat} {x : DieUnit} {as : List (Nat × DieEntry)} {is : List InlinedFn} (h : InlinedAs d xs t detail uo x as is) :
    InlinedAs d xs t detail uo x as.reverse is.reverse := by
  induction h with
  | nil => exact .nil
  | cons a b c e _ ih =>
    rw [List.reverse_cons, List.reverse_cons]
    exact inlinedAs_append ih (.cons a b c e .nil)

/-- The lines for inlined functions. -/
theorem inlined_shown (hfit : SectionsFit d) {q : ObjDwarf} (hq : q.d = d) {sec : List Byte} (hsec : q.line = some sec) (hw : sec.length < W64) {uo : Nat} {x : DieUnit} (hx : (uo, x) ∈ placeUnits 0 xs)
    {t : LineTable} (hl : LinesOf d sec x t) (hp : t.Plain Supported) {o : TextOpts} (hno : o.nosrc = false) (no : Nat) {as : List (Nat × DieEntry)} {is : List InlinedFn}
    (h : InlinedAs d xs t.tables o.verbose uo x as is) :
    ∃ m, ∀ fuel, m ≤ fuel → ∀ zs s src here, ISt d xs s → GoodDies d xs s uo x zs as → SrcIs src here →
      ∃ src' s', inlinedText q fuel o no zs src s = .ok ((inlinedLines no here is, src'), s') ∧ SrcIs src' (outermost here is) ∧ Kept d xs s s' := by
  induction h with
  | nil =>
    refine ⟨0, fun fuel _ zs s src here hs hz hh => ?_⟩
    cases zs with
    | nil => exact ⟨src, s, rfl, hh, Kept.refl hs⟩
    | cons => exact hz.elim
  | @cons a as l nm i is h1 h2 h3 h4 _ ih =>
    obtain ⟨m, ih⟩ := ih
    obtain ⟨m1, h1⟩ := declared_built hok hfit h1
    obtain ⟨m2, h4⟩ := callSite_spec hok hq hl.2.1.tables h4
    refine ⟨m + m1 + m2 + 1, fun fuel hf zs s src here hs hz hh => ?_⟩
    cases zs with
    | nil => exact hz.elim
    | cons z zs =>
      obtain ⟨s1, k1, k2⟩ := h1 fuel fuel (by omega) (by omega) z s hs hz.1
      obtain ⟨s2, j1, j2⟩ := unitLines_spec hok hq hsec hw hl hp k2.1 hx hz.1.isOpen (fuel := fuel) (by omega)
      have k3 := k2.trans j2
      obtain ⟨src', s3, l1, l2, l3⟩ := h4 fuel (by omega) z s2 j2.1 (hz.1.ext k3.2)
      have k4 := k3.trans l3
      obtain ⟨src'', s4, n1, n2, n3⟩ := ih fuel (by omega) zs s3 src' i.call k4.1 (hz.2.extR k4.2.1) l2
      refine ⟨src'', s4, ?_, n2, k4.trans n3⟩
      have hun : withoutUnions l = l := by
        unfold withoutUnions
        exact List.filter_eq_self.2 (fun p hp => by simpa using h2 p hp)
      rw [inlinedText, hq, k1, Res.bind_ok]
      simp only
      unfold inlinedAtText
      rw [hno]
      simp only [Bool.false_eq_true, if_false]
      rw [j1, Res.bind_ok]
      simp only
      rw [l1, Res.bind_ok]
      simp only [Res.bind_ok]
      rw [n1, Res.bind_ok, hun, ← h3, numberText_eq, atText_eq hh]
      simp only [inlinedLines, ← inlined_width, List.append_assoc]
      rfl

/-! ### Frames -/

/-- The options, and what is shown. -/
def shows (o : TextOpts) : ShowWhat := ⟨!o.nosrc, !o.nodienames, o.doargs, o.verbose⟩

/-- A `DIE` is this entry, or there is none. -/
def DieIs (d : Sections) (xs : List DieUnit) (s : IState) : Option DIE → Option EntryRef → Prop
  | none, none => True
  | some y, some p => GoodDie d xs s y p.uo p.x p.o p.e
  | _, _ => False

/-- The place in the source. -/
def SourceIs : List Src → Option SourceLine → Prop
  | [], none => True
  | a :: _, some p => SrcIs a p
  | _, _ => False

/-- The frame is this one. -/
structure FrameFor (f : FrameIn) (g : FrameFacts) : Prop where
  pc : f.rawIP = g.pc
  trampoline : f.trampoline = g.trampoline
  mechanism : f.mechanism = g.mechanism
  object : f.object = g.object
  addr : f.addr = g.addr
  reloc : f.reloc = g.reloc
  sym : f.sym = g.sym
  source : SourceIs f.source g.source

omit hok in
theorem DieIs.extR {s s' : IState} (he : ∀ uo, Ext (s.st uo) (s'.st uo)) : ∀ {y : Option DIE} {p : Option EntryRef}, DieIs d xs s y p → DieIs d xs s' y p
  | none, none, _ => trivial
  | some _, some _, h => GoodDie.extR h he
  | none, some _, h => h.elim
  | some _, none, h => h.elim

omit hok in
theorem DieIs.isSome {s : IState} : ∀ {y : Option DIE} {p : Option EntryRef}, DieIs d xs s y p → y.isSome = p.isSome
  | none, none, _ => rfl
  | some _, some _, _ => rfl
  | none, some _, h => h.elim
  | some _, none, h => h.elim

/-- The offset. -/
def OffIs (off : BitVec 64) : Option Nat → Prop
  | some n => off.toNat = n ∧ n < 2 ^ 64 - 1
  | none => off = BitVec.allOnes 64

omit hok in
theorem ones_nat : (BitVec.allOnes 64).toNat = 2 ^ 64 - 1 := rfl

omit hok in
theorem not_ones {w : BitVec 64} (h : w.toNat < 2 ^ 64 - 1) : w ≠ BitVec.allOnes 64 := by
  intro hc
  rw [hc, ones_nat] at h
  exact absurd h (by decide)

/-- The offset as it is shown. -/
def offsetShown : Option Nat → List Byte
  | some n => asciiText "+" ++ decimalText n
  | none => []

omit hok in
theorem offsetText_eq {off : BitVec 64} {r : Option Nat} (h : OffIs off r) : offsetText off = offsetShown r := by
  cases r with
  | none => rw [show off = BitVec.allOnes 64 from h]; rfl
  | some n =>
    obtain ⟨h1, h2⟩ := h
    unfold offsetText offsetShown
    rw [if_neg (not_ones (by omega)), h1]
    rfl

omit hok in
theorem orSymbol_start (sym : Option (BitVec 64)) {addr : BitVec 64} {n : Nat} (h1 : n ≤ addr.toNat) (h2 : addr.toNat - n < 2 ^ 64 - 1) :
    OffIs (orSymbol sym addr (addr - BitVec.ofNat 64 n)) (some (addr.toNat - n)) := by
  have h3 := addr.isLt
  have e : (addr - BitVec.ofNat 64 n).toNat = addr.toNat - n := by
    rw [BitVec.toNat_sub_of_le (by rw [BitVec.le_def, BitVec.toNat_ofNat]; exact Nat.le_trans (Nat.mod_le _ _) h1), BitVec.toNat_ofNat, Nat.mod_eq_of_lt (by omega)]
  unfold orSymbol
  rw [if_neg (not_ones (by omega))]
  exact ⟨e, h2⟩

omit hok in
theorem orSymbol_ones {f : FrameFacts} {r : Option Nat} (h : (∃ v m, f.sym = some (v, m) ∧ v.toNat ≤ f.addr.toNat ∧ f.addr.toNat - v.toNat < 2 ^ 64 - 1 ∧ r = some (f.addr.toNat - v.toNat)) ∨
    (f.sym = none ∧ r = none)) : OffIs (orSymbol (f.sym.map (·.1)) f.addr (BitVec.allOnes 64)) r := by
  unfold orSymbol
  rw [if_pos rfl]
  rcases h with ⟨v, m, h1, h2, h3, rfl⟩ | ⟨h1, rfl⟩
  · rw [h1]
    exact ⟨BitVec.toNat_sub_of_le (BitVec.le_def.2 h2), h3⟩
  · rw [h1]; rfl

omit hok in
theorem declared_unit {uo : Nat} {x : DieUnit} {o : Nat} {e : DieEntry} {l : List (Nat × List Byte)} {nm : List Byte} (h : DeclaredAs d xs uo x o e l nm) : (uo, x) ∈ placeUnits 0 xs := by
  cases h with
  | link h _ _ => exact h.1
  | here h _ _ _ _ _ => exact h

/-- What is known of the inlined functions. -/
def InlinedFor (d : Sections) (xs : List DieUnit) (q : ObjDwarf) (o : TextOpts) (is : List InlinedFn) (R : IState → List DIE → Prop) : Prop :=
  ((∀ s zs, R s zs → zs = []) ∧ is = []) ∨ ∃ (p : EntryRef) (as : List (Nat × DieEntry)) (t : LineTable) (sec : List Byte), (∀ s zs, R s zs → GoodDies d xs s p.uo p.x zs as) ∧
    (p.uo, p.x) ∈ placeUnits 0 xs ∧ q.line = some sec ∧ LinesOf d sec p.x t ∧ t.Plain Supported ∧ InlinedAs d xs t.tables o.verbose p.uo p.x as is

/-- A function and what is inlined in it. -/
theorem printable_chain (hfit : SectionsFit d) (hrefs : RefsOk xs) {q : ObjDwarf} (hq : q.d = d) {o : TextOpts} {g : FrameFacts} {object : List Byte}
    (hob : g.object = some object) {offset : Option Nat} {p : EntryRef} (hL : g.looked (shows o) = some p) {l : List (Nat × List Byte)} {nm : List Byte} (hd : DeclaredAs d xs p.uo p.x p.o p.e l nm)
    (hu : ∀ q ∈ l, q.1 ≠ 0x17) (ho : FnOffset d xs g (some p) offset) {F : Forest (Nat × DieEntry)} {as : List (Nat × DieEntry)} (hF : (p.x.placed p.uo).KidsOf (p.o, p.e) F)
    (ht : ∀ b ∈ (p.o, p.e) :: F.all, Told d xs p.uo p.x g.addr.toNat b) (hc : InlineChain d xs p.uo p.x g.addr.toNat (p.o, p.e) F as) :
    ∃ m, ∀ fuel, m ≤ fuel → ∀ f, FrameFor f g → ∀ s, ISt d xs s → RangesRight d xs s → DieIs d xs s f.die g.fn →
      ∃ off zs s', printable q fuel o f s = .ok ((qualified l nm, off, zs), s') ∧ OffIs off offset ∧ KeptR d xs s s' ∧ RangesRight d xs s' ∧ GoodDies d xs s' p.uo p.x zs as := by
  have hlook : ∀ (f : FrameIn) s, DieIs d xs s f.die g.fn → DieIs d xs s (if o.nodienames then none else f.die) (some p) := by
    intro f s h
    rw [← hL]
    unfold FrameFacts.looked shows
    cases o.nodienames with
    | false => exact h
    | true => exact trivial
  have hun : withoutUnions l = l := by
    unfold withoutUnions
    exact List.filter_eq_self.2 (fun p hp => by simpa using hu p hp)
  have hoff : ∃ w, (∃ n, ∀ fuel, n ≤ fuel → ∀ y s, ISt d xs s → RangesRight d xs s → GoodDie d xs s y p.uo p.x p.o p.e →
      ∃ s', offsetIn d fuel y g.addr s = .ok (w, s') ∧ KeptR d xs s s' ∧ RangesRight d xs s') ∧ OffIs (orSymbol (g.sym.map (·.1)) g.addr w) offset := by
    cases ho with
    | @start _ n h1 h2 h3 =>
      obtain ⟨m, hm⟩ := offset_starts hok hfit hrefs h1
      exact ⟨_, ⟨m, fun fuel hf y s hs hr hg => hm fuel hf y s g.addr hs hr hg⟩, orSymbol_start _ h2 h3⟩
    | symbol h0 h1 h2 h3 =>
      obtain ⟨m, hm⟩ := offset_unknown (d := d) hok hrefs (h0 p rfl) (x := p.x)
      exact ⟨_, ⟨m, fun fuel hf y s hs hr hg => hm fuel hf y s g.addr hs hr hg⟩, orSymbol_ones (.inl ⟨_, _, h1, h2, h3, rfl⟩)⟩
    | unknown h0 h1 =>
      obtain ⟨m, hm⟩ := offset_unknown (d := d) hok hrefs (h0 p rfl) (x := p.x)
      exact ⟨_, ⟨m, fun fuel hf y s hs hr hg => hm fuel hf y s g.addr hs hr hg⟩, orSymbol_ones (.inr ⟨h1, rfl⟩)⟩
  obtain ⟨w, hw, hoff⟩ := hoff
  obtain ⟨m, hm⟩ := frame_good hok hfit hrefs hd hF ht hw
  refine ⟨m + F.all.length + 1, fun fuel hf f hfg s hs hr hdi => ?_⟩
  have hob' : f.object = some object := hfg.object.trans hob
  have h := hlook f s hdi
  generalize hy : (if o.nodienames then none else f.die) = y at h
  cases y with
  | none => exact h.elim
  | some y =>
    have h : GoodDie d xs s y p.uo p.x p.o p.e := h
    obtain ⟨zs, as', s', k1, k2, k3, k4, k5⟩ := hm fuel fuel fuel (by omega) (by omega) (by omega) y s (g.sym.map (·.1)) hs hr h
    have := chain_one hc hF k3
    subst this
    refine ⟨_, zs, s', ?_, hoff, k4, k5, k2⟩
    unfold printable
    rw [hob']
    simp only
    rw [hy, hq, hfg.addr, hfg.sym, k1, hun]

/-- What is known of a frame. -/
theorem printable_shown (hfit : SectionsFit d) (hrefs : RefsOk xs) {q : ObjDwarf} (hq : q.d = d) {o : TextOpts} {g : FrameFacts} {object name : List Byte}
    (hob : g.object = some object) {offset : Option Nat} {is : List InlinedFn} (hn : FnName d xs (g.looked (shows o)) name) (ho : FnOffset d xs g (g.looked (shows o)) offset)
    (hi : FnInlined Supported d xs q.line o.verbose g.addr.toNat (g.looked (shows o)) is) :
    ∃ R : IState → List DIE → Prop, InlinedFor d xs q o is R ∧ ∃ m, ∀ fuel, m ≤ fuel → ∀ f, FrameFor f g → ∀ s, ISt d xs s → RangesRight d xs s → DieIs d xs s f.die g.fn →
      ∃ off zs s', printable q fuel o f s = .ok ((name, off, zs), s') ∧ OffIs off offset ∧ KeptR d xs s s' ∧ RangesRight d xs s' ∧ R s' zs := by
  have hlook : ∀ (f : FrameIn) s, DieIs d xs s f.die g.fn → DieIs d xs s (if o.nodienames then none else f.die) (g.looked (shows o)) := by
    intro f s h
    unfold FrameFacts.looked shows
    cases o.nodienames with
    | false => exact h
    | true => exact trivial
  generalize hL : g.looked (shows o) = L at hn ho hi hlook
  cases L with
  | none =>
    cases hn
    cases hi
    refine ⟨fun _ zs => zs = [], .inl ⟨fun _ _ h => h, rfl⟩, 0, fun fuel _ f hfg s hs hr hd => ?_⟩
    have hob' : f.object = some object := hfg.object.trans hob
    have h := hlook f s hd
    refine ⟨_, [], s, ?_, orSymbol_ones (f := g) ?_, (Kept.refl hs).toR, hr, rfl⟩
    · unfold printable
      rw [hob']
      simp only
      generalize (if o.nodienames then none else f.die) = y at h
      cases y with
      | some y => exact h.elim
      | none => rw [printableFrame, hfg.addr, hfg.sym]
    · cases ho with
      | symbol _ h1 h2 h3 => exact .inl ⟨_, _, h1, h2, h3, rfl⟩
      | unknown _ h1 => exact .inr ⟨h1, rfl⟩
  | some p =>
    cases hn with
    | @declared _ l nm hd hu =>
    have hch : ∃ F as, (p.x.placed p.uo).KidsOf (p.o, p.e) F ∧ (∀ b ∈ (p.o, p.e) :: F.all, Told d xs p.uo p.x g.addr.toNat b) ∧ InlineChain d xs p.uo p.x g.addr.toNat (p.o, p.e) F as ∧
        ((as = [] ∧ is = []) ∨ ∃ t sec, q.line = some sec ∧ LinesOf d sec p.x t ∧ t.Plain Supported ∧ InlinedAs d xs t.tables o.verbose p.uo p.x as is) := by
      cases hi with
      | nothing h1 h2 h3 => exact ⟨_, _, h1, h2, h3, .inl ⟨rfl, rfl⟩⟩
      | inlined h0 h1 h2 h3 h4 h5 h6 => exact ⟨_, _, h1, h2, h3, .inr ⟨_, _, h0, h4, h5, h6⟩⟩
    obtain ⟨F, as, hF, ht, hc, hcase⟩ := hch
    refine ⟨fun s zs => GoodDies d xs s p.uo p.x zs as, ?_, printable_chain hok hfit hrefs hq hob hL hd hu ho hF ht hc⟩
    rcases hcase with ⟨rfl, rfl⟩ | ⟨t, sec, h1, h2, h3, h4⟩
    · refine .inl ⟨fun s zs h => ?_, rfl⟩
      cases zs with
      | nil => rfl
      | cons => exact h.elim
    · exact .inr ⟨p, as, t, sec, fun _ _ h => h, declared_unit hd, h1, h2, h3, h4⟩

/-- The arguments. -/
theorem args_shown_all (hfit : SectionsFit d) (hbase : BasesKnown d xs) {c : Ctx} {f : FrameState} (hc : FrameIs c f) {uo : Nat} {x : DieUnit} {o : Nat} {e : DieEntry} (hx : (uo, x) ∈ placeUnits 0 xs)
    {F : Forest (Nat × DieEntry)} (hF : (x.placed uo).KidsOf (o, e) F) {ts : List (List Byte)} (hts : ArgTexts knowsSome d xs f (parameters uo x F) ts) :
    ∃ m, ∀ fuel rounds depth n, m ≤ fuel → m ≤ rounds → m ≤ depth → F.tops.length < n → ∀ y s, ISt d xs s → GoodDie d xs s y uo x o e →
      ∃ s', argsText d fuel rounds depth n c (some y) s = .ok (argumentText ts, s') ∧ Kept d xs s s' := by
  obtain ⟨u, T, hop⟩ := opened hok hx
  obtain ⟨m, hm⟩ := args_loop hok hfit hbase hc (T := T) F ts hts
  refine ⟨m, fun fuel rounds depth n h1 h2 h3 h4 y s hs hg => ?_⟩
  have : u = y.unit := by have := hop.isOpen; rw [hg.isOpen] at this; injection this with this; exact this.symm
  subst this
  obtain ⟨s2, b1, b2, b3, b4, b5⟩ := kidsBegin_spec hok hs hg hop hF
  have hep : (s.st uo).epoch = (s2.st uo).epoch := (b3.1 uo).1.symm
  rw [hep] at b1 b4
  obtain ⟨s', c1, c2⟩ := hm fuel rounds depth n h1 h2 h3 h4 true y s2 o e b2 (hg.ext b3) hop b5 b4
  refine ⟨s', ?_, Kept.trans ⟨b2, b3⟩ c2⟩
  unfold argsText
  simp only
  rw [b1, Res.bind_ok]
  exact c1

theorem argPrint_shown (hfit : SectionsFit d) (hbase : BasesKnown d xs) {q : ObjDwarf} (hq : q.d = d) {o : TextOpts} {c : Ctx} {fs : FrameState} (hc : FrameIs c fs) {r : Option EntryRef}
    {args : List Byte} (h : FnArgs knowsSome d xs (shows o) fs r args) :
    ∃ m, ∀ fuel, m ≤ fuel → ∀ f : FrameIn, f.ctx = c → ∀ s, ISt d xs s → DieIs d xs s f.die r → ∃ s', argPrint q fuel o f s = .ok (args, s') ∧ Kept d xs s s' := by
  cases h with
  | none =>
    refine ⟨0, fun fuel _ f hfc s hs hd => ⟨s, ?_, Kept.refl hs⟩⟩
    unfold argPrint
    generalize f.die = y at hd
    cases y with
    | some y => exact hd.elim
    | none => cases o.doargs <;> rfl
  | hidden h =>
    refine ⟨0, fun fuel _ f hfc s hs hd => ⟨s, ?_, Kept.refl hs⟩⟩
    have h : o.doargs = false := h
    unfold argPrint
    rw [h]
    rfl
  | @arguments p F ts h hF hts =>
    have h : o.doargs = true := h
    by_cases hx : (p.uo, p.x) ∈ placeUnits 0 xs
    · obtain ⟨m, hm⟩ := args_shown_all hok hfit hbase hc hx hF hts
      refine ⟨m + F.tops.length + 1, fun fuel hf f hfc s hs hd => ?_⟩
      unfold argPrint
      rw [h, hq, hfc]
      generalize f.die = y at hd
      cases y with
      | none => exact hd.elim
      | some y => exact hm fuel fuel fuel fuel (by omega) (by omega) (by omega) (by omega) y s hs hd
    · refine ⟨0, fun fuel hf f hfc s hs hd => ?_⟩
      generalize f.die = y at hd
      cases y with
      | none => exact hd.elim
      | some y =>
        have hd : GoodDie d xs s y p.uo p.x p.o p.e := hd
        exact absurd hd.entry.1 hx

omit hok in
theorem nameText_eq {s : IState} {f : FrameIn} {g : FrameFacts} (hfg : FrameFor f g) (hd : DieIs d xs s f.die g.fn) (n : List Byte) : nameText f n = g.shownName n := by
  unfold nameText FrameFacts.shownName FrameFacts.mark
  rw [hfg.sym, hfg.trampoline, DieIs.isSome hd]
  simp only
  by_cases h : n = []
  · rw [if_neg (fun hc => hc h), if_pos h]
    cases g.sym <;> rfl
  · rw [if_pos h, if_neg h]; rfl

/-- The place in the source, as it is shown. -/
def sourceShown : Option SourceLine → List Byte
  | some p => p.text
  | none => []

/-- The line for the function. -/
theorem place_shown (hfit : SectionsFit d) (hbase : BasesKnown d xs) {q : ObjDwarf} (hq : q.d = d) {o : TextOpts} {g : FrameFacts} {c : Ctx} {fs : FrameState} (hc : FrameIs c fs)
    {object name args : List Byte} (hob : g.object = some object) {offset : Option Nat} (ha : FnArgs knowsSome d xs (shows o) fs g.fn args) (no : Nat) :
    ∃ m, ∀ fuel, m ≤ fuel → ∀ f, FrameFor f g → f.ctx = c → ∀ s off src pl, ISt d xs s → DieIs d xs s f.die g.fn → OffIs off offset → (if src.1 ≠ [] then atText src else []) = sourceShown pl →
      ∃ t s', placeText q fuel o f name off src s = .ok (t, s') ∧ Kept d xs s s' ∧
        numberText no ++ (say "0x" ++ (hexPadded 16 f.rawIP.toNat ++ (t ++ ((if o.verbose then say " via " ++ f.mechanism else []) ++ say "\n")))) =
          functionLine (shows o) no g object (g.shownName name) args offset pl := by
  obtain ⟨m, hm⟩ := argPrint_shown hok hfit hbase hq (o := o) hc ha
  refine ⟨m, fun fuel hf f hfg hfc s off src pl hs hd ho hp => ?_⟩
  obtain ⟨s', k1, k2⟩ := hm fuel hf f hfc s hs hd
  refine ⟨say " in " ++ (g.shownName name ++ (say "(" ++ (args ++ (say ")" ++ (offsetShown offset ++ (say " in " ++ (object ++
    ((if o.verbose then say "@0x" ++ hexDigitText (g.pc - g.reloc).toNat else []) ++ sourceShown pl)))))))), s', ?_, k2, ?_⟩
  · unfold placeText
    rw [hfg.object, hob]
    simp only
    unfold objectText
    rw [k1, Res.bind_ok, nameText_eq hfg hd, offsetText_eq ho, hp, hfg.pc, hfg.reloc, hexPadded_0]
  · rw [numberText_eq, hfg.pc, hexPadded_16, hfg.mechanism]
    unfold functionLine
    simp only [List.append_assoc]
    cases offset <;> cases pl <;> rfl

/-- A frame. -/
theorem frame_shown (hfit : SectionsFit d) (hrefs : RefsOk xs) (hbase : BasesKnown d xs) {q : ObjDwarf} (hq : q.d = d) (hline : ∀ sec, q.line = some sec → sec.length < W64) {o : TextOpts}
    {g : FrameFacts} {c : Ctx} {fs : FrameState} (hc : FrameIs c fs) {no : Nat} {t : List Byte} (h : FrameText knowsSome Supported d xs q.line fs (shows o) no g t) :
    ∃ m, ∀ fuel, m ≤ fuel → ∀ f, FrameFor f g → f.ctx = c → ∀ s, ISt d xs s → RangesRight d xs s → DieIs d xs s f.die g.fn →
      ∃ s', frameText q fuel o no f s = .ok (t, s') ∧ KeptR d xs s s' ∧ RangesRight d xs s' := by
  cases h with
  | outside hob =>
    refine ⟨0, fun fuel _ f hfg _ s hs hr _ => ⟨s, ?_, (Kept.refl hs).toR, hr⟩⟩
    unfold frameText printable placeText
    rw [hfg.object, hob]
    simp only [Res.bind_ok, List.reverse_nil]
    rw [inlinedText, Res.bind_ok]
    simp only
    rw [numberText_eq, hfg.pc, hexPadded_16, hfg.mechanism]
    rfl
  | @inside object name args offset is t hob hn ho hi ha hl =>
    obtain ⟨R, hR, m1, h1⟩ := printable_shown hok hfit hrefs hq hob hn ho hi
    obtain ⟨m2, h2⟩ := place_shown hok hfit hbase hq hc (name := name) hob (offset := offset) ha no
    -- the source
    have hsrc : ∀ f, FrameFor f g → ∃ src, firstSource o f.source = src ∧ (∀ h, g.here (shows o) = some h → o.nosrc = false ∧ SrcIs src h) ∧ (g.here (shows o) = none → src.1 = []) := by
      intro f hfg
      have hs := hfg.source
      unfold firstSource FrameFacts.here shows
      cases o.nosrc with
      | true => exact ⟨_, rfl, (fun h hc => nomatch hc), fun _ => rfl⟩
      | false =>
        simp only [Bool.not_false, if_true, Bool.false_eq_true, if_false]
        generalize f.source = l at hs
        generalize g.source = r at hs
        cases l with
        | nil =>
          cases r with
          | none => exact ⟨_, rfl, (fun h hc => nomatch hc), fun _ => rfl⟩
          | some => exact hs.elim
        | cons a l =>
          cases r with
          | none => exact hs.elim
          | some b =>
            refine ⟨a, rfl, (fun h hc => ?_), (fun hc => nomatch hc)⟩
            injection hc with hc
            subst hc
            exact ⟨trivial, hs⟩
    have hin : ∃ m3, ∀ fuel, m3 ≤ fuel → ∀ src : Src, (∀ h, g.here (shows o) = some h → o.nosrc = false ∧ SrcIs src h) → (g.here (shows o) = none → src.1 = []) → ∀ zs s pl, ISt d xs s → R s zs → (∀ h, g.here (shows o) = some h → pl = some (outermost h is.reverse)) → (g.here (shows o) = none → pl = none) →
        ∃ src' s', inlinedText q fuel o no zs.reverse src s = .ok (((match g.here (shows o) with | some h => inlinedLines no h is.reverse | none => []), src'), s') ∧
          (if src'.1 ≠ [] then atText src' else []) = sourceShown pl ∧ Kept d xs s s' := by
      cases hl with
      | unknown hh =>
        refine ⟨0, fun fuel _ src e1 e2 zs s pl hs hz _ hp => ?_⟩
        have hz0 : zs = [] := by
          rcases hR with ⟨h, _⟩ | ⟨p, as, t, sec, h, _, _, _, _, h'⟩
          · exact h s zs hz
          · cases h'
            have := h s zs hz
            cases zs with
            | nil => rfl
            | cons => exact this.elim
        subst hz0
        refine ⟨src, s, ?_, ?_, Kept.refl hs⟩
        · rw [hh]; rfl
        · rw [hp hh, e2 hh]; rfl
      | @known h is hh hne hcall =>
        have hlast : (outermost h is.reverse).file ≠ [] := by
          have key : ∀ (l : List InlinedFn) (h : SourceLine), h.file ≠ [] → (∀ i ∈ l, i.call.file ≠ []) → (outermost h l).file ≠ [] := by
            intro l
            induction l with
            | nil => intro h h1 _; exact h1
            | cons i l ih => intro h _ h2; exact ih i.call (h2 i List.mem_cons_self) (fun j hj => h2 j (List.mem_cons_of_mem _ hj))
          exact key _ _ hne (fun i hi => hcall i (List.mem_reverse.1 hi))
        have fin : ∀ src' pl, SrcIs src' (outermost h is.reverse) → pl = some (outermost h is.reverse) → (if src'.1 ≠ [] then atText src' else []) = sourceShown pl := by
          intro src' pl h1 h2
          rw [if_pos (by rw [h1.1]; exact hlast), atText_eq h1, h2]; rfl
        rcases hR with ⟨h0, rfl⟩ | ⟨p, as, t, sec, h0, hx, hsec, hlo, hpl, has⟩
        · refine ⟨0, fun fuel _ src e1 e2 zs s pl hs hz hp _ => ?_⟩
          obtain ⟨hno, hsi⟩ := e1 h hh
          have := h0 s zs hz
          subst this
          refine ⟨src, s, ?_, fin src pl hsi (hp h hh), Kept.refl hs⟩
          rw [hh]; rfl
        · by_cases hno : o.nosrc = false
          case neg =>
            exact ⟨0, fun fuel _ src e1 _ _ _ _ _ _ _ _ => absurd (e1 h hh).1 hno⟩
          obtain ⟨m3, h3⟩ := inlined_shown hok hfit hq hsec (hline sec hsec) hx hlo hpl hno no (inlinedAs_reverse has)
          refine ⟨m3, fun fuel hf src e1 e2 zs s pl hs hz hp _ => ?_⟩
          have hsi := (e1 h hh).2
          obtain ⟨src', s', k1, k2, k3⟩ := h3 fuel hf zs.reverse s src h hs (goodDies_reverse (h0 s zs hz)) hsi
          refine ⟨src', s', ?_, fin src' pl k2 (hp h hh), k3⟩
          rw [hh]; exact k1
    obtain ⟨m3, h3⟩ := hin
    have ht : ∃ pl, (∀ h, g.here (shows o) = some h → pl = some (outermost h is.reverse)) ∧ (g.here (shows o) = none → pl = none) ∧
        t = (match g.here (shows o) with | some h => inlinedLines no h is.reverse | none => []) ++ functionLine (shows o) no g object (g.shownName name) args offset pl := by
      cases hl with
      | @known h _ hh _ _ =>
        refine ⟨_, fun h' hh' => ?_, (fun hc => ?_), by rw [hh]⟩
        · rw [hh] at hh'; injection hh' with hh'; rw [hh']
        · rw [hh] at hc; cases hc
      | unknown hh =>
        refine ⟨none, fun h' hh' => ?_, fun _ => rfl, by rw [hh]; rfl⟩
        rw [hh] at hh'; cases hh'
    obtain ⟨pl, p1, p2, rfl⟩ := ht
    refine ⟨m1 + m2 + m3, fun fuel hf f hfg hfc s hs hr hd => ?_⟩
    obtain ⟨src, e0, e1, e2⟩ := hsrc f hfg
    obtain ⟨off, zs, s1, k1, k2, k3, k4, k5⟩ := h1 fuel (by omega) f hfg s hs hr hd
    obtain ⟨src', s2, j1, j2, j3⟩ := h3 fuel (by omega) src e1 e2 zs s1 pl k3.1 k5 p1 p2
    have k6 := k3.trans j3.toR
    obtain ⟨t, s3, l1, l2, l3⟩ := h2 fuel (by omega) f hfg hfc s2 off src' pl j3.1 (hd.extR k6.2) k2 j2
    refine ⟨s3, ?_, k6.trans l2.toR, (k4.of_eq j3.2.2).of_eq l2.2.2⟩
    unfold frameText
    rw [k1, Res.bind_ok]
    simp only
    rw [e0, j1, Res.bind_ok]
    simp only
    rw [l1, Res.bind_ok, ← l3]

/-- The frame, given the inlined functions as they are shown. -/
theorem frame_rest (hfit : SectionsFit d) (hrefs : RefsOk xs) (hbase : BasesKnown d xs) {q : ObjDwarf} (hq : q.d = d) {o : TextOpts} {f : FrameIn}
    {g : FrameFacts} (hfg : FrameFor f g) {fs : FrameState} (hcx : FrameIs f.ctx fs) {no : Nat} {object args : List Byte}
    (hob : g.object = some object) {offset : Option Nat} {p : EntryRef} (hL : g.looked (shows o) = some p) {l : List (Nat × List Byte)} {nm : List Byte} (hd : DeclaredAs d xs p.uo p.x p.o p.e l nm)
    (hu : ∀ q ∈ l, q.1 ≠ 0x17) (ho : FnOffset d xs g (some p) offset) {F : Forest (Nat × DieEntry)} {as : List (Nat × DieEntry)} (hF : (p.x.placed p.uo).KidsOf (p.o, p.e) F)
    (ht : ∀ b ∈ (p.o, p.e) :: F.all, Told d xs p.uo p.x g.addr.toNat b) (hc : InlineChain d xs p.uo p.x g.addr.toNat (p.o, p.e) F as) (ha : FnArgs knowsSome d xs (shows o) fs g.fn args)
    {text : List Byte} {pl : Option SourceLine}
    (hin : ∃ m, ∀ fuel, m ≤ fuel → ∀ zs s, ISt d xs s → GoodDies d xs s p.uo p.x zs as.reverse →
      ∃ src s', inlinedText q fuel o no zs (firstSource o f.source) s = .ok ((text, src), s') ∧ (if src.1 ≠ [] then atText src else []) = sourceShown pl ∧ Kept d xs s s') :
    ∃ m, ∀ fuel, m ≤ fuel → ∀ s, ISt d xs s → RangesRight d xs s → DieIs d xs s f.die g.fn →
      ∃ s', frameText q fuel o no f s = .ok (text ++ functionLine (shows o) no g object (g.shownName (qualified l nm)) args offset pl, s') := by
  obtain ⟨m1, h1⟩ := printable_chain hok hfit hrefs hq hob hL hd hu ho hF ht hc
  obtain ⟨m2, h2⟩ := place_shown hok hfit hbase hq hcx (name := qualified l nm) hob (offset := offset) ha no
  obtain ⟨m3, h3⟩ := hin
  refine ⟨m1 + m2 + m3, fun fuel hf s hs hr hd => ?_⟩
  obtain ⟨off, zs, s1, k1, k2, k3, k4, k5⟩ := h1 fuel (by omega) f hfg s hs hr hd
  obtain ⟨src', s2, j1, j2, j3⟩ := h3 fuel (by omega) zs.reverse s1 k3.1 (goodDies_reverse k5)
  have k6 := k3.trans j3.toR
  obtain ⟨t, s3, l1, l2, l3⟩ := h2 fuel (by omega) f hfg rfl s2 off src' pl j3.1 (hd.extR k6.2) k2 j2
  refine ⟨s3, ?_⟩
  unfold frameText
  rw [k1, Res.bind_ok]
  simp only
  rw [j1, Res.bind_ok]
  simp only
  rw [l1, Res.bind_ok, ← l3]

end

/-! ### Stacks -/

/-- What is known of an object. -/
structure ObjOk (q : ObjDwarf) (xs : List DieUnit) : Prop where
  ok : InfoOk q.d xs
  fit : SectionsFit q.d
  refs : RefsOk xs
  bases : BasesKnown q.d xs
  line : ∀ sec, q.line = some sec → sec.length < W64

/-- The frames are these. -/
inductive FramesFor (objs : Nat → ObjDwarf) (us : Nat → List DieUnit) (S : Nat → IState) : List (Nat × FrameIn) → List (Nat × FrameFacts × FrameState) → Prop
  | nil : FramesFor objs us S [] []
  | cons {k f fs g c gs} : FrameFor f g → FrameIs f.ctx c → DieIs (objs k).d (us k) (S k) f.die g.fn → FramesFor objs us S fs gs → FramesFor objs us S ((k, f) :: fs) ((k, g, c) :: gs)

theorem FramesFor.extR {objs : Nat → ObjDwarf} {us : Nat → List DieUnit} {S S' : Nat → IState} (he : ∀ k uo, Ext ((S k).st uo) ((S' k).st uo)) {fs : List (Nat × FrameIn)}
    {gs : List (Nat × FrameFacts × FrameState)} (h : FramesFor objs us S fs gs) : FramesFor objs us S' fs gs := by
  induction h with
  | nil => exact .nil
  | cons h1 h2 h3 _ ih => exact .cons h1 h2 (h3.extR (he _)) ih

theorem frames_shown {objs : Nat → ObjDwarf} {us : Nat → List DieUnit} (hobj : ∀ k, ObjOk (objs k) (us k)) {o : TextOpts} {no : Nat} {gs : List (Nat × FrameFacts × FrameState)} {t : List Byte}
    (ht : FramesText knowsSome Supported (fun k => (objs k).d) us (fun k => (objs k).line) (shows o) no gs t) : ∀ {fs : List (Nat × FrameIn)} {S : Nat → IState}, FramesFor objs us S fs gs →
    ∃ m, ∀ fuel, m ≤ fuel → ∀ S' : Nat → IState, (∀ k uo, Ext ((S k).st uo) ((S' k).st uo)) → (∀ k, ISt (objs k).d (us k) (S' k)) → (∀ k, RangesRight (objs k).d (us k) (S' k)) →
      ∃ S'', StackText.framesText objs fuel o no fs S' = .ok (t, S'') ∧ (∀ k uo, Ext ((S' k).st uo) ((S'' k).st uo)) ∧ (∀ k, ISt (objs k).d (us k) (S'' k)) ∧ ∀ k, RangesRight (objs k).d (us k) (S'' k) := by
  induction ht with
  | nil =>
    intro fs S hfs
    cases hfs
    exact ⟨0, fun fuel _ S' _ h1 h2 => ⟨S', rfl, fun _ _ => Ext.refl _, h1, h2⟩⟩
  | @cons no k g c t gs ts h1 _ ih =>
    intro fs S hfs
    cases hfs with
    | @cons _ f fs _ _ _ hf hcx hd hrest =>
    obtain ⟨m1, k1⟩ := frame_shown (hobj k).ok (hobj k).fit (hobj k).refs (hobj k).bases rfl (hobj k).line hcx h1
    obtain ⟨m2, k2⟩ := ih hrest
    refine ⟨m1 + m2, fun fuel hfu S' he hs hr => ?_⟩
    obtain ⟨s', a1, a2, a3⟩ := k1 fuel (by omega) f hf rfl (S' k) (hs k) (hr k) (hd.extR (he k))
    obtain ⟨S'', b1, b2, b3, b4⟩ := k2 fuel (by omega) (fun j => if j = k then s' else S' j)
      (by
        intro j uo
        by_cases hj : j = k
        · subst hj; rw [if_pos rfl]; exact (he _ uo).trans (a2.2 uo)
        · rw [if_neg hj]; exact he j uo)
      (by
        intro j
        by_cases hj : j = k
        · subst hj; rw [if_pos rfl]; exact a2.1
        · rw [if_neg hj]; exact hs j)
      (by
        intro j
        by_cases hj : j = k
        · subst hj; rw [if_pos rfl]; exact a3
        · rw [if_neg hj]; exact hr j)
    refine ⟨S'', ?_, ?_, b3, b4⟩
    rotate_left
    · intro j uo
      refine Ext.trans ?_ (b2 j uo)
      by_cases hj : j = k
      · subst hj; rw [if_pos rfl]; exact a2.2 uo
      · rw [if_neg hj]; exact Ext.refl _
    rw [StackText.framesText, a1, Res.bind_ok]
    simp only
    rw [b1, Res.bind_ok]

theorem headText_eq (l : LwpIn) : headText l = stackHeading l.thread l.id l.name := by
  unfold headText stackHeading
  rfl

end Pstack.Props
