import Verif.Proof.Args
import Verif.Props.LocList
import Verif.Proof.FindEntry
import Verif.Spec.ArgMeaning
/-
The list of arguments: locations, and the entries of the parameters.
-/
namespace Pstack.Props
open Pstack.Reader Pstack.Spec Pstack.Dwarf Pstack.Die Pstack.Args

/-- What an evaluation gives for a place. -/
def _root_.Pstack.Spec.ObjectPlace.word : ObjectPlace → BitVec 64
  | .memory a => a
  | .register v => v

def _root_.Pstack.Spec.ObjectPlace.isValue : ObjectPlace → Bool
  | .memory _ => false
  | .register _ => true

theorem code_evaluated {c : Ctx} {f : FrameState} (hc : FrameIs c f) {code : List Byte} {pl : ObjectPlace} (h : CodeSays knowsSome f.m code pl) {sec rest : List Byte} {off : Nat}
    (hw : sec.length < 2 ^ 64) (hd : sec.drop off = code ++ rest) : evalIn c sec off (off + code.length) = .ok (pl.word, pl.isValue) := by
  unfold evalIn
  cases h with
  | @memory e a h1 h2 h3 =>
    rw [C20_expression_partial c.env sec hw c.reloc f.m hc.machine e h1 h2 a h3 rest [] 0 off hd]
    rfl
  | @register r v h1 h2 =>
    rw [show (off + [BitVec.ofNat 8 (0x50 + r)].length) = off + 1 from rfl, C20_register_location c.env sec c.reloc r h1 v (hc.machine.reg r v h2) rest [] 0 off hd]
    rfl
  | computed h => exact h.elim

/-- `DW_OP_stack_value`: the value is taken for an address. -/
theorem stack_evaluated {c : Ctx} {f : FrameState} (hc : FrameIs c f) {e : Spec.Expr} {v : BitVec 64} (h1 : e.WF) (h2 : e.Exact f.m) (h3 : e.value f.m = some v) {sec rest : List Byte} {off : Nat}
    (hw : sec.length < 2 ^ 64) (hd : sec.drop off = (e.encode ++ [0x9f#8]) ++ rest) : evalIn c sec off (off + (e.encode ++ [0x9f#8]).length) = .ok (v, false) := by
  unfold evalIn
  rw [List.append_assoc] at hd
  have e1 : off + (e.encode ++ [0x9f#8]).length = off + e.encode.length + 1 := by simp; omega
  rw [e1, C20_not_stack_value c.env sec hw c.reloc f.m hc.machine e h1 h2 v h3 rest [] 0 off hd, C20_expression_partial c.env sec hw c.reloc f.m hc.machine e h1 h2 v h3 _ [] 0 off hd]
  rfl

theorem chosen_drop {sec code : List Byte} {off : Nat} (h : (sec.drop off).take code.length = code) : ∃ rest, sec.drop off = code ++ rest :=
  ⟨(sec.drop off).drop code.length, by conv => lhs; rw [← List.take_append_drop code.length (sec.drop off), h]⟩

section
variable {d : Sections} {xs : List DieUnit} (hok : InfoOk d xs) (hfit : SectionsFit d)
include hok hfit

/-- The base address. -/
theorem unitLow_spec {s : IState} (hs : ISt d xs s) {uo : Nat} {x : DieUnit} (hp : (uo, x) ∈ placeUnits 0 xs) {u : Die.Unit} (hu : openUnit d.info d.abbr uo = .ok u)
    {base : Nat} (hba : BaseAddress d x base) {fuel : Nat} (h1 : 1 ≤ fuel) : ∃ w s', unitLow d fuel u s = .ok (w, s') ∧ w.toNat = base ∧ Kept d xs s s' := by
  unfold unitLow
  rcases hba with ⟨i, f1, ⟨a, v, f2, f3, f4⟩, f5⟩ | ⟨hn, h⟩
  · obtain ⟨y, s1, g1, g2, g3⟩ := rootAttr_some hok hs hp hu f1 h1
    obtain ⟨w, s', k1, k2, k3, _⟩ := toNum_spec hok hfit g2.1 g3 f2 f3 f4 h1
    refine ⟨w, s', ?_, k2, g2.trans k3⟩
    rw [g1, Res.bind_ok]
    exact k1
  · obtain ⟨s1, g1, g2⟩ := rootAttr_no hok hs hp hu hn h1
    refine ⟨0, s1, ?_, by rw [h]; rfl, g2⟩
    rw [g1, Res.bind_ok]
    rfl

/-- The form of an attribute. -/
theorem form_of {s : IState} (hs : ISt d xs s) {y : DIE} {uo : Nat} {x : DieUnit} {o : Nat} {e : DieEntry} (hg : GoodDie d xs s y uo x o e) {i : Nat} {b : AttrDecl}
    (hi : e.decl.attrs[i]? = some b) : Attr.form s ⟨y, i⟩ = .ok b.form := by
  obtain ⟨b', v', k, w, h1, h2, h3, _, h4, h5, h6⟩ := attr_shows hok hs hg hi
  rw [hi] at h1; injection h1 with h1; subst h1
  exact h4

/-- A block. -/
theorem block_of {s : IState} (hs : ISt d xs s) {y : DIE} {uo : Nat} {x : DieUnit} {o : Nat} {e : DieEntry} (hg : GoodDie d xs s y uo x o e) {i : Nat} {b : AttrDecl} {code : List Byte}
    (hi : e.decl.attrs[i]? = some b) (hv : e.vals[i]? = some (.block code)) (hf : b.form = 0x0a ∨ b.form = 0x09 ∨ b.form = 0x18) :
    ∃ off rest, Attr.value s ⟨y, i⟩ = .ok (.block code.length off) ∧ d.info.drop off = code ++ rest := by
  obtain ⟨b', v', k, w, h1, h2, h3, _, h4, h5, h6⟩ := attr_shows hok hs hg hi
  rw [hi] at h1; injection h1 with h1; subst h1
  rw [hv] at h2; injection h2 with h2; subst h2
  have : ∃ off rest, w = .block code.length off ∧ d.info.drop off = code ++ rest := by
    rcases hf with h | h | h <;> rw [h] at h3 <;> simp only [formKind] at h3 <;> injection h3 with h3 <;> subst h3 <;> exact h6
  obtain ⟨off, rest, rfl, h7⟩ := this
  exact ⟨off, rest, h5, h7⟩

/-- An attribute with an expression. -/
theorem block_evaluated (hbase : BasesKnown d xs) {c : Ctx} {s : IState} (hs : ISt d xs s) {y : DIE} {uo : Nat} {x : DieUnit} {o : Nat} {e : DieEntry} (hg : GoodDie d xs s y uo x o e) {i : Nat}
    {b : AttrDecl} {code : List Byte} (hi : e.decl.attrs[i]? = some b) (hv : e.vals[i]? = some (.block code)) (hf : b.form = 0x0a ∨ b.form = 0x09 ∨ b.form = 0x18) {w : BitVec 64} {isv : Bool}
    (he : ∀ off rest, d.info.drop off = code ++ rest → evalIn c d.info off (off + code.length) = .ok (w, isv)) {fuel : Nat} (h1 : 1 ≤ fuel) :
    ∃ s', evalAttr d fuel c ⟨y, i⟩ s = .ok ((w, isv), s') ∧ Kept d xs s s' := by
  obtain ⟨base, hb⟩ := hbase uo x hg.entry.1
  obtain ⟨lw, s1, k1, _, k3⟩ := unitLow_spec hok hfit hs hg.entry.1 hg.isOpen hb h1
  have hg1 := GoodDie.ext hg k3.2
  obtain ⟨off, rest, j1, j2⟩ := block_of hok hfit k3.1 hg1 hi hv hf
  refine ⟨s1, ?_, k3⟩
  unfold evalAttr
  rw [k1, Res.bind_ok]
  simp only
  rw [form_of hok hfit k3.1 hg1 hi, Res.bind_ok, if_neg (by omega), if_pos hf, j1, Res.bind_ok]
  simp only
  rw [he off rest j2, Res.bind_ok]

/-- An attribute with a list. -/
theorem list_searched {c : Ctx} {f : FrameState} (hc : FrameIs c f) {s : IState} (hs : ISt d xs s) {y : DIE} {uo : Nat} {x : DieUnit} {o : Nat} {e : DieEntry} (hg : GoodDie d xs s y uo x o e) {i : Nat}
    {b : AttrDecl} {n base : Nat} {es : List LocEntry} {rest : List Byte} (hi : e.decl.attrs[i]? = some b) (hf : b.form = 0x17) (hn : AttrNumber d x e i n) (hb : BaseAddress d x base)
    (ha : x.addrSize = 8) (hfits : FitsAt f.m.reloc.toNat base es) (hl : knowsSome.listed x.version base es) (hd : (f.lists x.version).drop n = encodeLocs x.version es ++ rest)
    {fuel : Nat} (h1 : 1 ≤ fuel) :
    ∃ r s', evalAttr d fuel c ⟨y, i⟩ s = (do let q ← Args.evalFound c (f.lists x.version) r; Res.ok (q, s')) ∧ Kept d xs s s' ∧ Chosen (f.lists x.version) r (locate f.pc base es) := by
  obtain ⟨lw, s1, k1, k2, k3⟩ := unitLow_spec hok hfit hs hg.entry.1 hg.isOpen hb h1
  have hg1 := GoodDie.ext hg k3.2
  obtain ⟨a, v, q1, q2, q3⟩ := hn
  obtain ⟨w, s2, j1, j2, j3, _⟩ := toNum_spec hok hfit k3.1 hg1 q1 q2 q3 h1
  obtain ⟨u, t, hop⟩ := opened hok hg.entry.1
  have : u = y.unit := by have := hop.isOpen; rw [hg.isOpen] at this; injection this with this; exact this.symm
  subst this
  have hver : y.unit.version = x.version := hop.sizes.version
  have haddr : y.unit.addrlen = 8 := by rw [← ha]; exact hop.sizes.addr
  have hreloc : f.m.reloc.toNat = c.reloc.toNat := by rw [hc.machine.reloc]
  have hip : c.ip = BitVec.ofNat 64 (c.reloc.toNat + f.pc) := by
    rw [← hc.ip, BitVec.ofNat_toNat, BitVec.setWidth_eq]
  have hlow : c.reloc + lw = BitVec.ofNat 64 (c.reloc.toNat + base) := by
    rw [BitVec.ofNat_add, BitVec.ofNat_toNat, BitVec.setWidth_eq, ← k2, BitVec.ofNat_toNat, BitVec.setWidth_eq]
  have hpc : c.reloc.toNat + f.pc < 2 ^ 64 := by rw [← hc.ip]; exact c.ip.isLt
  have hcr : c.reloc = BitVec.ofNat 64 c.reloc.toNat := by rw [BitVec.ofNat_toNat, BitVec.setWidth_eq]
  rw [hreloc] at hfits
  have hlen := congrArg List.length hd
  rw [List.length_drop, List.length_append] at hlen
  have key : ∃ r, evalListed c y.unit lw w = Args.evalFound c (f.lists x.version) r ∧ Chosen (f.lists x.version) r (locate f.pc base es) := by
    unfold evalListed
    rw [hver, hlow, haddr, j2]
    unfold encodeLocs at hd hlen
    by_cases hv : 5 ≤ x.version
    · have hsec : f.lists x.version = f.loclists := by unfold FrameState.lists; rw [if_pos hv]
      simp only [knowsSome, if_pos hv] at hl
      rw [if_pos hv] at hd hlen
      rw [hsec] at hd hlen ⊢
      have := encodeList5_len es
      obtain ⟨r, g1, g2⟩ := search5 f.loclists hc.loclists.2 c.addrs c.reloc.toNat f.pc hpc es base n (f.loclists.length + 1) rest hfits hl hd (by omega)
      refine ⟨r, ?_, g2⟩
      rw [if_pos (show x.version ≥ 5 from hv), hc.loclists.1, hip]
      rw [← hcr] at g1
      rw [g1, Res.bind_ok]
    · have hsec : f.lists x.version = f.loc := by unfold FrameState.lists; rw [if_neg hv]
      simp only [knowsSome, if_neg hv] at hl
      rw [if_neg hv] at hd hlen
      rw [hsec] at hd hlen ⊢
      have := encodeList4_len es hl
      obtain ⟨r, g1, g2⟩ := search4 f.loc hc.loc.2 c.reloc.toNat f.pc base hpc es n (f.loc.length + 1) rest hfits hl hd (by omega)
      refine ⟨r, ?_, g2⟩
      rw [if_neg (show ¬x.version ≥ 5 from hv), hc.loc.1, hip, g1, Res.bind_ok]
  obtain ⟨r, e1, e2⟩ := key
  refine ⟨r, s2, ?_, k3.trans j3, e2⟩
  unfold evalAttr
  rw [k1, Res.bind_ok]
  simp only
  rw [form_of hok hfit k3.1 hg1 hi, Res.bind_ok, if_pos hf, j1, Res.bind_ok]
  simp only
  rw [e1]

/-- The section with the expression is in memory. -/
theorem lists_fit {c : Ctx} {f : FrameState} (hc : FrameIs c f) (version : Nat) : (f.lists version).length < 2 ^ 64 := by
  unfold FrameState.lists
  split
  · exact hc.loclists.2
  · exact hc.loc.2

/-- The location of an entry, evaluated: `ev` says what its expression gives, wherever it is. -/
theorem location_of (hbase : BasesKnown d xs) {c : Ctx} {f : FrameState} (hc : FrameIs c f) {p : EntryRef} {code : List Byte} (h : LocationCode knowsSome d xs f p code) {w : BitVec 64} {isv : Bool}
    (ev : ∀ (sec : List Byte) off rest, sec.length < 2 ^ 64 → sec.drop off = code ++ rest → evalIn c sec off (off + code.length) = .ok (w, isv)) :
    ∃ m, ∀ fuel, m ≤ fuel → ∀ y s, ISt d xs s → IsRef d xs s y p →
      ∃ a s1 s2, getAttr d fuel y 2 false s = .ok (some a, s1) ∧ evalAttr d fuel c a s1 = .ok ((w, isv), s2) ∧ Kept d xs s s2 := by
  cases h with
  | @expression uo x o e i a _ h1 q1 q2 q3 =>
    obtain ⟨m, hm⟩ := getAttr_inherits hok (d := d) (by decide) h1
    refine ⟨m + 1, fun fuel hf y s hs hg => ?_⟩
    obtain ⟨a', s1, g1, g2, g3, z, rfl, g4, _⟩ := hm fuel y p.x s (by omega) hs hg
    obtain ⟨s2, k1, k2⟩ := block_evaluated hok hfit hbase g2 g4 q1 q2 q3 (fun off rest h => ev _ off rest hok.fit.1 h) (fuel := fuel) (by omega)
    exact ⟨_, s1, s2, g1, k1, Kept.trans ⟨g2, g3⟩ k2⟩
  | @listed base es _ h1 h2 =>
    obtain ⟨uo, x, o, e, i, a, n, rest, h1, q1, q2, q3, q4, q5, q6, q7, q8⟩ := h1
    obtain ⟨m, hm⟩ := getAttr_inherits hok (d := d) (by decide) h1
    refine ⟨m + 1, fun fuel hf y s hs hg => ?_⟩
    obtain ⟨a', s1, g1, g2, g3, z, rfl, g4, _⟩ := hm fuel y p.x s (by omega) hs hg
    obtain ⟨r, s2, k1, k2, k3⟩ := list_searched hok hfit hc g2 g4 q1 q2 q3 q4 q5 q6 q7 q8 (fuel := fuel) (by omega)
    rw [h2] at k3
    obtain ⟨off, rfl, k4⟩ := k3
    obtain ⟨rest', k5⟩ := chosen_drop k4
    refine ⟨_, s1, s2, g1, ?_, Kept.trans ⟨g2, g3⟩ k2⟩
    rw [k1]
    show (do let q ← evalIn c (f.lists x.version) off (off + code.length); Res.ok (q, s2)) = _
    rw [ev _ off rest' (lists_fit hok hfit hc _) k5, Res.bind_ok]

/-- An entry with a list that has nothing for the instruction. -/
theorem location_none {c : Ctx} {f : FrameState} (hc : FrameIs c f) {p : EntryRef} {base : Nat} {es : List LocEntry} (h : LocListOf knowsSome d xs f p base es) (hn : locate f.pc base es = none) :
    ∃ m, ∀ fuel, m ≤ fuel → ∀ y s, ISt d xs s → IsRef d xs s y p →
      ∃ a s1 s2, getAttr d fuel y 2 false s = .ok (some a, s1) ∧ evalAttr d fuel c a s1 = .ok ((0, false), s2) ∧ Kept d xs s s2 := by
  obtain ⟨uo, x, o, e, i, a, n, rest, h1, q1, q2, q3, q4, q5, q6, q7, q8⟩ := h
  obtain ⟨m, hm⟩ := getAttr_inherits hok (d := d) (by decide) h1
  refine ⟨m + 1, fun fuel hf y s hs hg => ?_⟩
  obtain ⟨a', s1, g1, g2, g3, z, rfl, g4, _⟩ := hm fuel y p.x s (by omega) hs hg
  obtain ⟨r, s2, k1, k2, k3⟩ := list_searched hok hfit hc g2 g4 q1 q2 q3 q4 q5 q6 q7 q8 (fuel := fuel) (by omega)
  rw [hn] at k3
  have k3 : r = none := k3
  subst k3
  exact ⟨_, s1, s2, g1, by rw [k1]; rfl, Kept.trans ⟨g2, g3⟩ k2⟩

/-- What is written for an argument with a location. -/
theorem located_shown {c : Ctx} {p : EntryRef} {nm : List Byte} {r : EntryRef} (hnm : NamedAs d xs p nm) (hty : TypeOf xs p (some r)) {w : BitVec 64} {isv : Bool}
    (hloc : ∃ m, ∀ fuel, m ≤ fuel → ∀ y s, ISt d xs s → IsRef d xs s y p →
      ∃ a s1 s2, getAttr d fuel y 2 false s = .ok (some a, s1) ∧ evalAttr d fuel c a s1 = .ok ((w, isv), s2) ∧ Kept d xs s s2) {t : List Byte}
    (hv : ∃ m, ∀ fuel rounds depth, m ≤ fuel → m ≤ rounds → m ≤ depth → ∀ y s, ISt d xs s → IsRefOpt d xs s y (some r) →
      ∃ s', valueText d fuel rounds c.mem c.float depth w isv y s = .ok (t, s') ∧ Kept d xs s s') :
    ∃ m, ∀ fuel rounds depth, m ≤ fuel → m ≤ rounds → m ≤ depth → ∀ y s, ISt d xs s → IsRef d xs s y p →
      ∃ s', argText d fuel rounds depth c y s = .ok (nm ++ (asciiText "=" ++ t), s') ∧ Kept d xs s s' := by
  obtain ⟨m1, h1⟩ := named_of hok hfit hnm
  obtain ⟨m2, h2⟩ := type_of hok hty
  obtain ⟨m3, h3⟩ := hloc
  obtain ⟨m4, h4⟩ := hv
  refine ⟨m1 + m2 + m3 + m4, fun fuel rounds depth hf hr hdp y s hs hg => ?_⟩
  obtain ⟨s1, a1, a2⟩ := h1 fuel (by omega) y s hs hg
  obtain ⟨z, s2, b1, b2, b3⟩ := h2 fuel (by omega) y s1 a2.1 (GoodDie.ext hg a2.2)
  have k2 := a2.trans b2
  obtain ⟨a, s3, s4, c1, c2, c3⟩ := h3 fuel (by omega) y s2 k2.1 (GoodDie.ext hg k2.2)
  obtain ⟨s5, d1, d2⟩ := h4 fuel rounds depth (by omega) (by omega) (by omega) z s4 c3.1 (b3.ext c3.2)
  cases z with
  | none => exact b3.elim
  | some z =>
    refine ⟨s5, ?_, k2.trans (c3.trans d2)⟩
    unfold argText
    rw [a1, Res.bind_ok]
    simp only
    rw [b1, Res.bind_ok]
    simp only
    rw [c1, Res.bind_ok]
    simp only
    rw [c2, Res.bind_ok]
    simp only
    rw [d1]
    rfl

/-- What is written for an argument. -/
theorem arg_shown (hbase : BasesKnown d xs) {c : Ctx} {f : FrameState} (hc : FrameIs c f) {p : EntryRef} {t : List Byte} (h : ArgText knowsSome d xs f p t) :
    ∃ m, ∀ fuel rounds depth, m ≤ fuel → m ≤ rounds → m ≤ depth → ∀ y s, ISt d xs s → IsRef d xs s y p →
      ∃ s', argText d fuel rounds depth c y s = .ok (t, s') ∧ Kept d xs s s' := by
  cases h with
  | untyped hnm hty =>
    obtain ⟨m1, h1⟩ := named_of hok hfit hnm
    obtain ⟨m2, h2⟩ := type_of hok hty
    refine ⟨m1 + m2, fun fuel rounds depth hf hr hdp y s hs hg => ?_⟩
    obtain ⟨s1, a1, a2⟩ := h1 fuel (by omega) y s hs hg
    obtain ⟨z, s2, b1, b2, b3⟩ := h2 fuel (by omega) y s1 a2.1 (GoodDie.ext hg a2.2)
    cases z with
    | some z => exact b3.elim
    | none =>
      refine ⟨s2, ?_, a2.trans b2⟩
      unfold argText
      rw [a1, Res.bind_ok]
      simp only
      rw [b1, Res.bind_ok]
  | @object nm r q w code pl bs t hnm hty hl hcode hres hsz hb ho =>
    have hv : ∃ m, ∀ fuel rounds depth, m ≤ fuel → m ≤ rounds → m ≤ depth → ∀ y s, ISt d xs s → IsRefOpt d xs s y (some r) →
        ∃ s', valueText d fuel rounds c.mem c.float depth pl.word pl.isValue y s = .ok (t, s') ∧ Kept d xs s s' := by
      rw [hc.mem]
      cases hb with
      | @memory a _ h0 hst =>
        refine object_shown hok hfit ho c.float (some r) a false hres h0 ?_
        rcases hst with h | ⟨h, hl⟩
        · exact ⟨_, fetched_sized hok hfit f.mem hsz _, .inl h⟩
        · exact ⟨_, fetched_stored hok hfit hsz h hl, .inr rfl⟩
      | @register v _ h0 hst =>
        obtain ⟨h8, h0⟩ := h0
        refine object_shown hok hfit ho c.float (some r) v true hres h0 ⟨_, fetched_value f.mem q v, .inr ?_⟩
        rw [hst, h8, List.take_of_length_le (by rw [leBytes_length]; omega)]
    exact located_shown hok hfit hnm hty (location_of hok hfit hbase hc hl (fun sec off rest hw hd => code_evaluated hc hcode hw hd)) hv
  | @constant nm r uo x o e i a v z hnm hty hno h3 q1 q2 q3 =>
    obtain ⟨m1, h1⟩ := named_of hok hfit hnm
    obtain ⟨m2, h2⟩ := type_of hok hty
    obtain ⟨m3, h3'⟩ := lacks_of hok (by decide) hno
    obtain ⟨m4, h4⟩ := getAttr_inherits hok (d := d) (by decide) h3
    refine ⟨m1 + m2 + m3 + m4, fun fuel rounds depth hf hr hdp y s hs hg => ?_⟩
    obtain ⟨s1, a1, a2⟩ := h1 fuel (by omega) y s hs hg
    obtain ⟨w, s2, b1, b2, b3⟩ := h2 fuel (by omega) y s1 a2.1 (GoodDie.ext hg a2.2)
    have k2 := a2.trans b2
    obtain ⟨s3, c1, c2⟩ := h3' fuel (by omega) y s2 k2.1 (GoodDie.ext hg k2.2)
    have k3 := k2.trans c2
    obtain ⟨a', s4, g1, g2, g3, z', rfl, g4, _⟩ := h4 fuel y p.x s3 (by omega) k3.1 (GoodDie.ext hg k3.2)
    obtain ⟨v', e1, e2⟩ := toInt_spec hok g2 g4 q1 q2 q3
    cases w with
    | none => exact b3.elim
    | some w =>
      refine ⟨s4, ?_, k3.trans ⟨g2, g3⟩⟩
      unfold argText
      rw [a1, Res.bind_ok]
      simp only
      rw [b1, Res.bind_ok]
      simp only
      rw [c1, Res.bind_ok]
      simp only
      unfold constText
      rw [g1, Res.bind_ok]
      simp only
      rw [e1, Res.bind_ok, Res.bind_ok, e2]
      rfl
  | unknown hnm hty hno hno2 =>
    obtain ⟨m1, h1⟩ := named_of hok hfit hnm
    obtain ⟨m2, h2⟩ := type_of hok hty
    obtain ⟨m3, h3'⟩ := lacks_of hok (by decide) hno
    obtain ⟨m4, h4⟩ := lacks_of hok (by decide) hno2
    refine ⟨m1 + m2 + m3 + m4, fun fuel rounds depth hf hr hdp y s hs hg => ?_⟩
    obtain ⟨s1, a1, a2⟩ := h1 fuel (by omega) y s hs hg
    obtain ⟨w, s2, b1, b2, b3⟩ := h2 fuel (by omega) y s1 a2.1 (GoodDie.ext hg a2.2)
    have k2 := a2.trans b2
    obtain ⟨s3, c1, c2⟩ := h3' fuel (by omega) y s2 k2.1 (GoodDie.ext hg k2.2)
    have k3 := k2.trans c2
    obtain ⟨s4, d1, d2⟩ := h4 fuel (by omega) y s3 k3.1 (GoodDie.ext hg k3.2)
    cases w with
    | none => exact b3.elim
    | some w =>
      refine ⟨s4, ?_, k3.trans d2⟩
      unfold argText
      rw [a1, Res.bind_ok]
      simp only
      rw [b1, Res.bind_ok]
      simp only
      rw [c1, Res.bind_ok]
      simp only
      unfold constText
      rw [d1, Res.bind_ok]
      simp only
      rw [Res.bind_ok, List.append_nil]

/-! ### The list -/

omit hok hfit in
/-- The texts after the first. -/
def moreText (first : Bool) (ts : List (List Byte)) : List Byte := if first then argumentText ts else (ts.map (fun t => asciiText ", " ++ t)).flatten

omit hok hfit in
theorem moreText_cons (first : Bool) (t : List Byte) (ts : List (List Byte)) : moreText first (t :: ts) = (if first then [] else say ", ") ++ (t ++ moreText false ts) := by
  have key : ∀ (ts : List (List Byte)) (t : List Byte), argumentText (t :: ts) = t ++ (ts.map (fun t => asciiText ", " ++ t)).flatten := by
    intro ts
    induction ts with
    | nil => intro t; simp [argumentText, List.intercalate]
    | cons a ts ih =>
      intro t
      have := ih a
      unfold argumentText at this ⊢
      rw [show (asciiText ", ").intercalate (t :: a :: ts) = t ++ (asciiText ", " ++ (asciiText ", ").intercalate (a :: ts)) by simp [List.intercalate, List.intersperse], this]
      simp
  cases first with
  | true =>
    show argumentText (t :: ts) = [] ++ (t ++ _)
    rw [key]; rfl
  | false =>
    show ((t :: ts).map (fun t => asciiText ", " ++ t)).flatten = _
    simp only [List.map_cons, List.flatten_cons, List.append_assoc]
    rfl

/-- What is written for the children `F` of a function. -/
theorem args_loop (hbase : BasesKnown d xs) {c : Ctx} {f : FrameState} (hc : FrameIs c f) {uo : Nat} {x : DieUnit} {T : Tree} (F : Forest (Nat × DieEntry)) :
    ∀ ts, ArgTexts knowsSome d xs f (parameters uo x F) ts →
    ∃ m, ∀ fuel rounds depth n, m ≤ fuel → m ≤ rounds → m ≤ depth → F.tops.length < n → ∀ (first : Bool) (p : DIE) (s : IState) (par : Nat) (ep : DieEntry), ISt d xs s → GoodDie d xs s p uo x par ep →
      UnitOpened d uo x p.unit T → (F = .done ∨ ∃ g, PlaceOf d uo x T par g F) → (∀ a, F.head? = some a → GoodDie d xs s ⟨p.unit, ⟨(s.st uo).epoch, a.1⟩⟩ uo x a.1 a.2) →
      ∃ s', argsLoop d fuel rounds depth c n (F.head?.map (fun a => ⟨p.unit, ⟨(s.st uo).epoch, a.1⟩⟩)) p first s = .ok (moreText first ts, s') ∧ Kept d xs s s' := by
  have step : ∀ (F R : Forest (Nat × DieEntry)) (a : Nat × DieEntry), F.head? = some a → F.rest = R → F.tops = a :: R.tops →
      (∀ ts, ArgTexts knowsSome d xs f (parameters uo x R) ts →
    ∃ m, ∀ fuel rounds depth n, m ≤ fuel → m ≤ rounds → m ≤ depth → R.tops.length < n → ∀ (first : Bool) (p : DIE) (s : IState) (par : Nat) (ep : DieEntry), ISt d xs s → GoodDie d xs s p uo x par ep →
      UnitOpened d uo x p.unit T → (R = .done ∨ ∃ g, PlaceOf d uo x T par g R) → (∀ a, R.head? = some a → GoodDie d xs s ⟨p.unit, ⟨(s.st uo).epoch, a.1⟩⟩ uo x a.1 a.2) →
      ∃ s', argsLoop d fuel rounds depth c n (R.head?.map (fun a => ⟨p.unit, ⟨(s.st uo).epoch, a.1⟩⟩)) p first s = .ok (moreText first ts, s') ∧ Kept d xs s s') →
      ∀ ts, ArgTexts knowsSome d xs f (parameters uo x F) ts →
    ∃ m, ∀ fuel rounds depth n, m ≤ fuel → m ≤ rounds → m ≤ depth → F.tops.length < n → ∀ (first : Bool) (p : DIE) (s : IState) (par : Nat) (ep : DieEntry), ISt d xs s → GoodDie d xs s p uo x par ep →
      UnitOpened d uo x p.unit T → (F = .done ∨ ∃ g, PlaceOf d uo x T par g F) → (∀ a, F.head? = some a → GoodDie d xs s ⟨p.unit, ⟨(s.st uo).epoch, a.1⟩⟩ uo x a.1 a.2) →
      ∃ s', argsLoop d fuel rounds depth c n (F.head?.map (fun a => ⟨p.unit, ⟨(s.st uo).epoch, a.1⟩⟩)) p first s = .ok (moreText first ts, s') ∧ Kept d xs s s' := by
    intro F R a hF hR htops ih ts hts
    have hpar : parameters uo x F = (if a.2.decl.tag = 5 then [⟨uo, x, a.1, a.2⟩] else []) ++ parameters uo x R := by
      unfold parameters
      rw [htops, List.filter_cons]
      by_cases h : a.2.decl.tag = 5 <;> simp [h]
    rw [hpar] at hts
    -- after the first one
    have after : ∀ (m : Nat) (ts : List (List Byte)), (∀ fuel rounds depth n, m ≤ fuel → m ≤ rounds → m ≤ depth → R.tops.length < n → ∀ (first : Bool) (p : DIE) (s : IState) (par : Nat) (ep : DieEntry), ISt d xs s →
      GoodDie d xs s p uo x par ep → UnitOpened d uo x p.unit T → (R = .done ∨ ∃ g, PlaceOf d uo x T par g R) → (∀ a, R.head? = some a → GoodDie d xs s ⟨p.unit, ⟨(s.st uo).epoch, a.1⟩⟩ uo x a.1 a.2) →
      ∃ s', argsLoop d fuel rounds depth c n (R.head?.map (fun a => ⟨p.unit, ⟨(s.st uo).epoch, a.1⟩⟩)) p first s = .ok (moreText first ts, s') ∧ Kept d xs s s') →
      ∀ fuel rounds depth n, m ≤ fuel → m ≤ rounds → m ≤ depth → R.tops.length < n → ∀ (first : Bool) (p : DIE) (y : DIE) (s : IState) (par : Nat) (ep : DieEntry), ISt d xs s → GoodDie d xs s p uo x par ep →
      UnitOpened d uo x p.unit T → (∃ g, PlaceOf d uo x T par g F) → y.unit = p.unit → GoodDie d xs s y uo x a.1 a.2 →
      ∃ k s1 s', kidsNext y p s = .ok (k, s1) ∧ argsLoop d fuel rounds depth c n k p first s1 = .ok (moreText first ts, s') ∧ Kept d xs s s' := by
      intro m ts hm fuel rounds depth n h1 h2 h3 h4 first p y s par ep hs hg hop ⟨g, hP⟩ hyu hga
      obtain ⟨s2, c1, c2, c3, c4⟩ := kidsNext_spec (y := y) hs hg (by rw [hyu]; exact hop) hP hF hga
      have hep : (s.st uo).epoch = (s2.st uo).epoch := (c3.1 uo).1.symm
      rw [hep, hR, hyu] at c1 c4
      obtain ⟨s', q1, q2⟩ := hm fuel rounds depth n h1 h2 h3 h4 first p s2 par ep c2 (hg.ext c3) hop (.inr ⟨_, hR ▸ hP.next⟩) c4
      exact ⟨_, s2, s', c1, q1, Kept.trans ⟨c2, c3⟩ q2⟩
    by_cases htag : a.2.decl.tag = 5
    · rw [if_pos htag] at hts
      cases hts with
      | @cons _ _ t ts' ht hts' =>
      obtain ⟨m1, h1⟩ := ih ts' hts'
      obtain ⟨m2, h2⟩ := arg_shown hok hfit hbase hc ht
      refine ⟨m1 + m2, fun fuel rounds depth n hf hr hdp hn first p s par ep hs hg hop hP hh => ?_⟩
      obtain ⟨k, rfl⟩ : ∃ k, n = k + 1 := ⟨n - 1, by omega⟩
      have hga := hh a hF
      obtain ⟨raw, r1, r2, _⟩ := good_raw hok hs hga
      obtain ⟨s1, a1, a2⟩ := h2 fuel rounds depth (by omega) (by omega) (by omega) _ s hs hga
      have hP' : ∃ g, PlaceOf d uo x T par g F := by
        rcases hP with e | h
        · rw [e] at hF; cases hF
        · exact h
      obtain ⟨ky, s2, s', b1, b2, b3⟩ := after m1 ts' h1 fuel rounds depth k (by omega) (by omega) (by omega) (by rw [htops] at hn; simp at hn; omega) false p (y := ⟨p.unit, ⟨(s.st uo).epoch, a.1⟩⟩) s1 par ep a2.1 (hg.ext a2.2) hop hP'
        rfl (GoodDie.ext hga a2.2)
      refine ⟨s', ?_, a2.trans b3⟩
      rw [hF, Option.map_some, argsLoop, r1, Res.bind_ok, r2, if_pos htag, a1, Res.bind_ok]
      simp only
      rw [b1, Res.bind_ok]
      simp only
      rw [b2, Res.bind_ok, moreText_cons]
    · rw [if_neg htag] at hts
      obtain ⟨m1, h1⟩ := ih ts hts
      refine ⟨m1, fun fuel rounds depth n hf hr hdp hn first p s par ep hs hg hop hP hh => ?_⟩
      obtain ⟨k, rfl⟩ : ∃ k, n = k + 1 := ⟨n - 1, by omega⟩
      have hga := hh a hF
      obtain ⟨raw, r1, r2, _⟩ := good_raw hok hs hga
      have hP' : ∃ g, PlaceOf d uo x T par g F := by
        rcases hP with e | h
        · rw [e] at hF; cases hF
        · exact h
      obtain ⟨ky, s2, s', b1, b2, b3⟩ := after m1 ts h1 fuel rounds depth k hf hr hdp (by rw [htops] at hn; simp at hn; omega) first p (y := ⟨p.unit, ⟨(s.st uo).epoch, a.1⟩⟩) s par ep hs hg hop hP'
        rfl hga
      refine ⟨s', ?_, b3⟩
      rw [hF, Option.map_some, argsLoop, r1, Res.bind_ok, r2, if_neg htag, b1, Res.bind_ok]
      exact b2
  induction F with
  | done =>
    intro ts hts
    cases hts
    refine ⟨0, fun fuel rounds depth n _ _ _ hn first p s par ep hs hg hop hP hh => ⟨s, ?_, Kept.refl hs⟩⟩
    obtain ⟨k, rfl⟩ : ∃ k, n = k + 1 := ⟨n - 1, by simp [Forest.tops] at hn; omega⟩
    show argsLoop d fuel rounds depth c (k + 1) none p first s = _
    rw [argsLoop]
    cases first <;> rfl
  | leaf a r ih => exact step _ r a rfl rfl rfl ih
  | node a k r _ ih => exact step _ r a rfl rfl rfl ih

/-- What is written for a function. -/
theorem args_shown (hbase : BasesKnown d xs) {c : Ctx} {f : FrameState} (hc : FrameIs c f) {uo : Nat} {x : DieUnit} {o : Nat} {e : DieEntry} {F : Forest (Nat × DieEntry)}
    (hF : (x.placed uo).KidsOf (o, e) F) {ts : List (List Byte)} (hts : ArgTexts knowsSome d xs f (parameters uo x F) ts) {y : DIE} {s : IState} (hs : ISt d xs s) (hg : GoodDie d xs s y uo x o e) :
    ∃ m, ∀ fuel rounds depth n, m ≤ fuel → m ≤ rounds → m ≤ depth → F.tops.length < n →
      ∃ s', argsText d fuel rounds depth n c (some y) s = .ok (argumentText ts, s') ∧ Kept d xs s s' := by
  obtain ⟨u, T, hop⟩ := opened hok hg.entry.1
  have : u = y.unit := by have := hop.isOpen; rw [hg.isOpen] at this; injection this with this; exact this.symm
  subst this
  obtain ⟨m, hm⟩ := args_loop hok hfit hbase hc (T := T) F ts hts
  refine ⟨m, fun fuel rounds depth n h1 h2 h3 h4 => ?_⟩
  obtain ⟨s2, b1, b2, b3, b4, b5⟩ := kidsBegin_spec hok hs hg hop hF
  have hep : (s.st uo).epoch = (s2.st uo).epoch := (b3.1 uo).1.symm
  rw [hep] at b1 b4
  obtain ⟨s', c1, c2⟩ := hm fuel rounds depth n h1 h2 h3 h4 true y s2 o e b2 (hg.ext b3) hop b5 b4
  refine ⟨s', ?_, Kept.trans ⟨b2, b3⟩ c2⟩
  unfold argsText
  simp only
  rw [b1, Res.bind_ok]
  exact c1

end

end Pstack.Props
