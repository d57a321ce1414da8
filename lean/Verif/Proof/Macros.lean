import Verif.Model.Macros
import Verif.Spec.Macros
import Verif.Proof.StackText
import Verif.Proof.Lookup
/-
Lemmas for C82 and C83: macro information.
-/
namespace Pstack.Props
open Pstack.Reader Pstack.Spec Pstack.Dwarf Pstack.Die Pstack.Lines Pstack.StackText Pstack.Macros

/-- The call of a visitor for each. -/
def MacroEvent.call : MacroEvent → Event
  | .define l s => .define (BitVec.ofNat 32 l) s
  | .undef l s => .undef (BitVec.ofNat 32 l) s
  | .enter l dir f => .startFile (BitVec.ofNat 32 l) dir ⟨f.name, BitVec.ofNat 32 f.dir⟩
  | .leave => .endFile

/-- A visitor as one who is told. -/
def listener (v : Visitor) : List MacroEvent → MacroEvent → Bool := fun told e => v (told.map MacroEvent.call) (MacroEvent.call e)

/-! ### Reading -/

section
variable {d : List Byte}

theorem Reads.unbounded {α : Type} {p : Parse α} {bs : List Byte} {a : α} (h : Reads d p bs a) : Reads d (Macros.unbounded p) bs a := by
  intro off rest hd
  unfold Macros.unbounded
  rw [h off rest hd]

variable (hw : d.length < W64)
include hw

theorem reads_lineText {l : Nat} (hl : l < 2 ^ 64) {t : List Byte} (ht : GoodName t) : Reads d (lineText d) (encodeU l ++ (t ++ [0#8])) (BitVec.ofNat 64 l, t) := by
  unfold lineText
  exact (reads_uleb hw l hl).unbounded.bind ((reads_string hw t ht).map (f := fun t => (BitVec.ofNat 64 l, t)))

theorem reads_lineFile {l f : Nat} (hl : l < 2 ^ 64) (hf : f < 2 ^ 64) : Reads d (lineFile d) (encodeU l ++ encodeU f) (BitVec.ofNat 64 l, BitVec.ofNat 64 f) := by
  unfold lineFile
  exact (reads_uleb hw l hl).unbounded.bind ((reads_uleb hw f hf).unbounded.map (f := fun f => (BitVec.ofNat 64 l, f)))

omit hw in
theorem reads_forms {n : Nat} (hn : n < 256) (l : List Byte) (j fuel : Nat) (hj : j + l.length = n) (hf : l.length < fuel) :
    Reads d (operandForms d (BitVec.ofNat 64 n) fuel (BitVec.ofNat 8 j)) l l := by
  induction l generalizing j fuel with
  | nil =>
    obtain ⟨fuel, rfl⟩ : ∃ f, fuel = f + 1 := ⟨fuel - 1, by omega⟩
    unfold operandForms
    simp only [List.length_nil, Nat.add_zero] at hj
    rw [if_neg (by rw [BitVec.toNat_ofNat, BitVec.toNat_ofNat]; omega)]
    exact Reads.pure []
  | cons b l ih =>
    obtain ⟨fuel, rfl⟩ : ∃ f, fuel = f + 1 := ⟨fuel - 1, by simp at hf; omega⟩
    simp only [List.length_cons] at hj hf
    unfold operandForms
    rw [if_pos (by rw [BitVec.toNat_ofNat, BitVec.toNat_ofNat]; omega)]
    have e : BitVec.ofNat 8 j + 1 = BitVec.ofNat 8 (j + 1) := by rw [BitVec.ofNat_add]; rfl
    rw [e]
    exact (reads_u8 b).bind ((ih (j + 1) fuel (by omega) (by omega)).map (f := fun more => b :: more))

/-- The forms of operands, as a map. -/
def vendorMap : List (Nat × List Byte) → (Byte → Option (List Byte)) → (Byte → Option (List Byte))
  | [], m => m
  | (c, l) :: ps, m => vendorMap ps (addForms m (BitVec.ofNat 8 c) l)

theorem reads_operandTable (l : List (Nat × List Byte)) (h : ∀ p ∈ l, p.1 < 256 ∧ p.2.length < 256) (m : Byte → Option (List Byte)) :
    Reads d (operandTable d l.length m) (l.map (fun p => leBytes 1 p.1 ++ (encodeU p.2.length ++ p.2))).flatten (vendorMap l m) := by
  induction l generalizing m with
  | nil => exact Reads.pure m
  | cons p l ih =>
    obtain ⟨c, fs⟩ := p
    have hp := h (c, fs) List.mem_cons_self
    simp only at hp
    rw [List.length_cons, operandTable, List.map_cons, List.flatten_cons, List.append_assoc, List.append_assoc]
    refine (reads_byte c).bind ((reads_uleb hw fs.length (by omega)).unbounded.bind ?_)
    intro off rest hd
    have hd' : d.drop off = fs ++ ((l.map (fun p => leBytes 1 p.1 ++ (encodeU p.2.length ++ p.2))).flatten ++ rest) := by rw [hd, List.append_assoc]
    have hlen : fs.length < d.length + 1 := by
      have := congrArg List.length hd'
      rw [List.length_drop, List.length_append] at this
      omega
    have := (reads_forms (d := d) (n := fs.length) hp.2 fs 0 (d.length + 1) (by omega) hlen).bind (f := fun forms => operandTable d l.length (addForms m (BitVec.ofNat 8 c) forms))
      (ih (fun q hq => h q (List.mem_cons_of_mem _ hq)) (addForms m (BitVec.ofNat 8 c) fs))
    exact this off rest hd

omit hw in
theorem flags_wide : ∀ a b c : Bool, offsetSize (BitVec.ofNat 8 ((if a then 1 else 0) + (if b then 2 else 0) + (if c then 4 else 0))) = if a then 8 else 4 := by decide
omit hw in
theorem flags_lines : ∀ a b c : Bool, (BitVec.ofNat 8 ((if a then 1 else 0) + (if b then 2 else 0) + (if c then 4 else 0)) &&& 2#8 ≠ 0#8) ↔ b = true := by decide
omit hw in
theorem flags_vendor : ∀ a b c : Bool, (BitVec.ofNat 8 ((if a then 1 else 0) + (if b then 2 else 0) + (if c then 4 else 0)) &&& 4#8 ≠ 0#8) ↔ c = true := by decide

/-- What the header says. -/
def MacroList.lineOff (m : MacroList) : BitVec 32 :=
  match m.lines with
  | none => BitVec.allOnes 32
  | some n => BitVec.ofNat 32 n

def MacroList.table (m : MacroList) : Byte → Option (List Byte) :=
  match m.vendor with
  | none => fun _ => none
  | some l => vendorMap l (fun _ => none)

theorem reads_header (m : MacroList) (h : m.WF) : Reads d (header5 d) m.header (m.width, MacroList.lineOff m, MacroList.table m) := by
  obtain ⟨h1, h2, h3⟩ := h
  unfold header5 MacroList.header
  refine (reads_u16 m.version h1).bind ((reads_byte m.flags).bind ?_)
  have f1 : (BitVec.ofNat 8 m.flags &&& 2#8 ≠ 0#8) ↔ m.lines.isSome = true := flags_lines _ _ _
  have f2 : (BitVec.ofNat 8 m.flags &&& 4#8 ≠ 0#8) ↔ m.vendor.isSome = true := flags_vendor _ _ _
  have e1 : offsetSize (BitVec.ofNat 8 m.flags) = m.width := flags_wide m.wide m.lines.isSome m.vendor.isSome
  have e2 : Reads d (lineOffset d (BitVec.ofNat 8 m.flags) m.width) (optBytes (leBytes m.width) m.lines) (MacroList.lineOff m) := by
    unfold lineOffset MacroList.lineOff
    cases hl : m.lines with
    | none =>
      rw [if_neg (fun h => by have := f1.1 h; rw [hl] at this; cases this)]
      exact Reads.pure _
    | some n =>
      rw [if_pos (f1.2 (by rw [hl]; rfl))]
      simp only [optBytes]
      have := (reads_uint (d := d) m.width n (by unfold MacroList.width; split <;> decide) (h2 n hl)).map (f := fun o => o.setWidth 32)
      rwa [ofNat_trunc] at this
  have e3 : Reads d (operandTables d (BitVec.ofNat 8 m.flags)) (optBytes vendorBytes m.vendor) (MacroList.table m) := by
    unfold operandTables MacroList.table
    cases hl : m.vendor with
    | none =>
      rw [if_neg (fun h => by have := f2.1 h; rw [hl] at this; cases this)]
      exact Reads.pure _
    | some l =>
      rw [if_pos (f2.2 (by rw [hl]; rfl))]
      simp only [optBytes, vendorBytes]
      refine (reads_byte l.length).bind ?_
      rw [show (BitVec.ofNat 8 l.length).toNat = l.length by rw [BitVec.toNat_ofNat]; exact Nat.mod_eq_of_lt (h3 l hl).1]
      exact reads_operandTable hw l (h3 l hl).2 _
  rw [e1]
  exact e2.bind (e3.map (f := fun table => (m.width, MacroList.lineOff m, table)))

end

/-! ### Telling -/

theorem tellAll_append (g : List MacroEvent → MacroEvent → Bool) (T es es' : List MacroEvent) :
    tellAll g T (es ++ es') = if (tellAll g T es).2 then tellAll g (tellAll g T es).1 es' else tellAll g T es := by
  induction es generalizing T with
  | nil => simp [tellAll]
  | cons e es ih =>
    simp only [List.cons_append, tellAll]
    split
    · exact ih _
    · rfl

/-! ### Strings by number -/

section
variable {d : Sections} {xs : List DieUnit} (hok : InfoOk d xs) (hfit : SectionsFit d) {uo : Nat} {x : DieUnit} (hx : (uo, x) ∈ placeUnits 0 xs) {u : Die.Unit} (hu : openUnit d.info d.abbr uo = .ok u)
include hok hfit hx hu

theorem strx_spec {i : Nat} {str : List Byte} (h : StringNumber d x i str) {s : IState} (hs : ISt d xs s) {fuel : Nat} (h1 : 1 ≤ fuel) :
    ∃ s', strx d fuel u (BitVec.ofNat 64 i) s = .ok (str, s') ∧ Kept d xs s s' := by
  obtain ⟨hi, b, hf, h⟩ := h
  have byIndex : ∀ {sec : List Byte} {n base es : Nat} {bw : BitVec 64} {a : Option Attr} {s1 s2 : IState}, d.strOffsets = some sec →
      rootAttr d fuel u 0x72 s = .ok (a, s1) → strBase d fuel u sec a s1 = .ok (bw, es, s2) → bw.toNat = base → (es = 4 ∨ es = 8) → TableHas sec es base i n →
      StringAt d.str n str → Kept d xs s s2 → ∃ s', strx d fuel u (BitVec.ofNat 64 i) s = .ok (str, s') ∧ Kept d xs s s' := by
    intro sec n base es bw a s1 s2 hsec hr hb hbw hes ht hstr hk
    obtain ⟨p, t1, t2, t3⟩ := table_read hes ht
    refine ⟨s2, ?_, hk⟩
    unfold strx
    rw [hsec]
    simp only
    rw [hr, Res.bind_ok]
    simp only
    rw [hb, Res.bind_ok]
    simp only
    rw [(index_word (hfit.strOffsets sec hsec) t2 hbw (word64 i hi)).1, t1, Res.bind_ok]
    simp only
    obtain ⟨hgn, rest, hd⟩ := hstr
    rw [word64 _ t3, memString_prefix d.str str rest n hgn hd, Res.bind_ok]
  obtain ⟨u', t, hop⟩ := opened hok hx
  have : u' = u := by have := hop.isOpen; rw [hu] at this; injection this with this; exact this.symm
  subst this
  cases h with
  | str hf' => rw [hf] at hf'; cases hf'
  | line hf' => rw [hf] at hf'; cases hf'
  | index _ hsec hb ht hstr =>
    obtain ⟨a, s', bw, g1, g2, g3, g4, g5⟩ := rootAttr_offset hok hs hx hu hb h1
    refine byIndex hsec g1 (s2 := s') (bw := bw) (es := x.offSize) ?_ g5 (offSize_cases x) ht hstr g2
    unfold strBase
    simp only [toNum, toUint]
    rw [g3, Res.bind_ok, if_neg (by decide), Res.bind_ok]
    simp only
    rw [g4, Res.bind_ok, Res.bind_ok, dwarfLen_of hok hx hu hb]
  | @indexHeader sec fmt64 version pad j n _ _ hsec hb hv5 hver hpad hh ht hstr =>
    obtain ⟨s', g1, g2⟩ := rootAttr_no hok hs hx hu hb h1
    obtain ⟨len, rest, l1, l2⟩ := headed_length hh
    rw [List.append_assoc] at l2
    have r1 := reads_u16 version hver _ _ l2
    have l3 := drop_prefix l2
    have r2 := reads_u16 pad hpad _ _ l3
    refine byIndex hsec g1 (s2 := s') (bw := BitVec.ofNat 64 (if fmt64 then 16 else 8)) (es := if fmt64 then 8 else 4) (base := if fmt64 then 16 else 8) ?_
      (by cases fmt64 <;> rfl) (by cases fmt64 <;> simp) ht hstr g2
    unfold strBase
    simp only
    have hver' : u'.version = x.version := hop.sizes.version
    rw [if_pos (by rw [hver']; exact hv5), l1, Res.bind_ok]
    simp only
    rw [r1, Res.bind_ok]
    simp only
    rw [r2, Res.bind_ok]
    simp only [leBytes_length]
    cases fmt64 <;> rfl
  | indexOld _ hsec hb hv4 ht hstr =>
    obtain ⟨s', g1, g2⟩ := rootAttr_no hok hs hx hu hb h1
    refine byIndex hsec g1 (s2 := s') (bw := 0) (es := 4) (base := 0) ?_ rfl (.inl rfl) ht hstr g2
    unfold strBase
    simp only
    have hver' : u'.version = x.version := hop.sizes.version
    rw [if_neg (by rw [hver']; omega)]

end

/-! ### Entries -/

theorem setWidth_line (l : Nat) : (BitVec.ofNat 64 l).setWidth 32 = BitVec.ofNat 32 l := ofNat_trunc l

/-- The file tables the library has for a line table. -/
def tablesOf (t : LineTables) : FileTables := (t.dirNames, fileTable t)

theorem fileAt_spec {lineStr str : List Byte} {w : Nat} {t : LineTables} (ht : t.WF lineStr str w) {n : Nat} (hn : n < 2 ^ 64) {f : SourceFile} {dir : List Byte} (hf : t.file n = some f)
    (hd : t.dirNames[f.dir]? = some dir) : fileAt (some (tablesOf t)) (BitVec.ofNat 64 n) = .ok (dir, ⟨f.name, BitVec.ofNat 32 f.dir⟩) := by
  have hs := dir_small ht hf hd
  unfold fileAt tablesOf
  simp only
  rw [word64 n hn, fileTable_file t n f hf]
  simp only
  rw [show (BitVec.ofNat 32 f.dir).toNat = f.dir by rw [BitVec.toNat_ofNat]; exact Nat.mod_eq_of_lt hs, hd]

/-- A line table that is well-formed. -/
def TablesOk (t : Option LineTables) : Prop := ∀ tt, t = some tt → ∃ ls str w, tt.WF ls str w

section
variable {q : MacroSecs} {xs : List DieUnit} (hok : InfoOk q.obj.d xs) (hfit : SectionsFit q.obj.d) (hline : ∀ sec, q.obj.line = some sec → sec.length < W64)
  {uo : Nat} {x : DieUnit} (hx : (uo, x) ∈ placeUnits 0 xs) {u : Die.Unit} (hu : openUnit q.obj.d.info q.obj.d.abbr uo = .ok u)
  {sec : List Byte} (hsec : q.macros = some sec) (hw : sec.length < W64)

/-- Lists the library reads text by position in: their offsets have the size that those of the unit have. -/
def sameSize (x : DieUnit) (wide : Bool) : Prop := wide = x.fmt64 ∧ 3 ≤ x.version

include hok hx hu in
theorem unit_len (h : 3 ≤ x.version) : u.dwarfLen = if x.fmt64 then 8 else 4 := by
  obtain ⟨u', T, hop⟩ := opened hok hx
  have : u' = u := by have := hop.isOpen; rw [hu] at this; injection this with this; exact this.symm
  subst this
  rw [hop.sizes.len, if_neg (by simp only [DieUnit.sizes]; omega)]
  rfl

include hok hline hx hu in
theorem lines5_spec {m : Macros} {ml : MacroList} (hm : m.lineOff = MacroList.lineOff ml) {t : Option LineTables} (h : MacroLines Supported q.obj.d q.obj.line x ml.lines t) :
    lines5 q u m = .ok (t.map tablesOf) ∧ TablesOk t := by
  unfold lines5
  rw [hm]
  unfold MacroList.lineOff
  cases hl : ml.lines with
  | none =>
    rw [hl] at h
    subst h
    simp only
    rw [if_neg (by simp)]
    exact ⟨rfl, fun _ h => nomatch h⟩
  | some n =>
    rw [hl] at h
    obtain ⟨hn, lsec, lt, rest, k1, k2, k3, k4, k5, rfl⟩ := h
    simp only
    have e1 : BitVec.ofNat 32 n ≠ BitVec.allOnes 32 := by
      intro h
      have := congrArg BitVec.toNat h
      rw [BitVec.toNat_ofNat, BitVec.toNat_allOnes] at this
      omega
    have e2 : ((BitVec.ofNat 32 n).signExtend 64).toNat = n := by
      rw [BitVec.signExtend_eq_setWidth_of_msb_false (by rw [BitVec.msb_eq_decide]; simp; omega)]
      simp; omega
    obtain ⟨p1, p2, p3, p4⟩ := k5
    obtain ⟨rows, hb, _⟩ := build_table lsec (hline lsec k1) ⟨u.dwarfLen, q.obj.d.lineStr, q.obj.d.str, q.obj.strx⟩ lt k3 (by
      intro h5
      show u.dwarfLen = _
      rw [unit_len hok hx hu (k4 h5).2, LineTable.width, (k4 h5).1]) p4 n rest k2 p1 p2 p3
    refine ⟨?_, fun tt h => by injection h with h; subst h; exact ⟨_, _, _, k3.tables⟩⟩
    rw [if_pos e1]
    unfold linesAt
    rw [k1]
    simp only
    rw [e2, hb]
    rfl

include hsec hw in
theorem readD5_spec {n : Nat} (hn : n < 2 ^ 64) {m : MacroList} (h : m.WF) {rest : List Byte} (hd : sec.drop n = m.header ++ rest) :
    readD5 q (BitVec.ofNat 64 n).toNat = .ok ⟨5, m.width, MacroList.lineOff m, MacroList.table m, some (sec, n + m.header.length)⟩ := by
  unfold readD5
  rw [hsec]
  simp only
  rw [word64 n hn, reads_header hw m h n rest hd, Res.bind_ok]

include hok hline hx hu hsec hw in
theorem nest5_spec {n : Nat} (hn : n < 2 ^ 64) {m : MacroList} (h : m.WF) {rest : List Byte} (hd : sec.drop n = m.header ++ rest) {t : Option LineTables}
    (ht : MacroLines Supported q.obj.d q.obj.line x m.lines t) : nest5 q u (BitVec.ofNat 64 n) = .ok (t.map tablesOf, m.width, sec, n + m.header.length) ∧ TablesOk t := by
  obtain ⟨k1, k2⟩ := lines5_spec hok hline hx hu (m := ⟨5, m.width, MacroList.lineOff m, MacroList.table m, some (sec, n + m.header.length)⟩) rfl ht
  refine ⟨?_, k2⟩
  unfold nest5
  rw [readD5_spec hsec hw hn h hd, Res.bind_ok]
  unfold start5
  rw [k1, Res.bind_ok]

theorem pow_width (w : Bool) : 256 ^ (if w then 8 else 4) ≤ 2 ^ 64 := by cases w <;> decide

theorem Reads.at {α : Type} {p : Parse α} {bs : List Byte} {a : α} (h : Reads sec p bs a) {off : Nat} {rest : List Byte} (hd : sec.drop off = bs ++ rest) :
    p off = .ok (a, off + bs.length) ∧ sec.drop (off + bs.length) = rest := ⟨h off rest hd, drop_prefix hd⟩

/-- The events so far, of a visitor. -/
abbrev calls (T : List MacroEvent) : List Event := T.map MacroEvent.call

/-- Telling one. -/
theorem tell_spec (v : Visitor) (T : List MacroEvent) (e : MacroEvent) (s : IState) (k : List Event → Ran) :
    tell v (calls T) (MacroEvent.call e) s k = if listener v T e then k (calls (T ++ [e])) else ⟨calls (T ++ [e]), some (.ok (false, s))⟩ := by
  unfold tell listener calls
  rw [List.map_append]
  rfl

include hok hfit hline hx hu hsec hw in
/-- The entries of a list are visited, and then what is behind them. -/
theorem items_visited {w : Bool} {t : Option LineTables} {is : List MacroItem} {es : List MacroEvent} (h : MacroSays (sameSize x) Supported q.obj.d q.obj.line sec x w t is es) (ht : TablesOk t) :
    ∃ m, ∀ fuel, m ≤ fuel → ∀ (v : Visitor) (T : List MacroEvent) off rest s, ISt q.obj.d xs s → sec.drop off = (is.map (MacroItem.encode (if w then 8 else 4))).flatten ++ rest →
      ∃ s', Kept q.obj.d xs s s' ∧ loop5 q u v (fuel + is.length) (t.map tablesOf) (if w then 8 else 4) sec off (calls T) s =
        if (tellAll (listener v) T es).2 then loop5 q u v fuel (t.map tablesOf) (if w then 8 else 4) sec (off + (is.map (MacroItem.encode (if w then 8 else 4))).flatten.length) (calls (tellAll (listener v) T es).1) s'
        else ⟨calls (tellAll (listener v) T es).1, some (.ok (false, s'))⟩ := by
  -- an entry that is one event
  have one : ∀ {w : Bool} {t : Option LineTables} {i : MacroItem} {is : List MacroItem} {e : MacroEvent} {es : List MacroEvent},
      (∃ m, ∀ fuel, m ≤ fuel → ∀ (v : Visitor) (T : List MacroEvent) off rest s, ISt q.obj.d xs s → sec.drop off = i.encode (if w then 8 else 4) ++ rest →
        ∃ s', Kept q.obj.d xs s s' ∧ loop5 q u v (fuel + 1) (t.map tablesOf) (if w then 8 else 4) sec off (calls T) s =
          tell v (calls T) (MacroEvent.call e) s' (fun told => loop5 q u v fuel (t.map tablesOf) (if w then 8 else 4) sec (off + (i.encode (if w then 8 else 4)).length) told s')) →
      (∃ m, ∀ fuel, m ≤ fuel → ∀ (v : Visitor) (T : List MacroEvent) off rest s, ISt q.obj.d xs s → sec.drop off = (is.map (MacroItem.encode (if w then 8 else 4))).flatten ++ rest →
      ∃ s', Kept q.obj.d xs s s' ∧ loop5 q u v (fuel + is.length) (t.map tablesOf) (if w then 8 else 4) sec off (calls T) s =
        if (tellAll (listener v) T es).2 then loop5 q u v fuel (t.map tablesOf) (if w then 8 else 4) sec (off + (is.map (MacroItem.encode (if w then 8 else 4))).flatten.length) (calls (tellAll (listener v) T es).1) s'
        else ⟨calls (tellAll (listener v) T es).1, some (.ok (false, s'))⟩) →
      (∃ m, ∀ fuel, m ≤ fuel → ∀ (v : Visitor) (T : List MacroEvent) off rest s, ISt q.obj.d xs s → sec.drop off = ((i :: is).map (MacroItem.encode (if w then 8 else 4))).flatten ++ rest →
      ∃ s', Kept q.obj.d xs s s' ∧ loop5 q u v (fuel + (i :: is).length) (t.map tablesOf) (if w then 8 else 4) sec off (calls T) s =
        if (tellAll (listener v) T (e :: es)).2 then loop5 q u v fuel (t.map tablesOf) (if w then 8 else 4) sec (off + ((i :: is).map (MacroItem.encode (if w then 8 else 4))).flatten.length) (calls (tellAll (listener v) T (e :: es)).1) s'
        else ⟨calls (tellAll (listener v) T (e :: es)).1, some (.ok (false, s'))⟩) := by
    intro w t i is e es ⟨m1, h1⟩ ⟨m2, h2⟩
    refine ⟨m1 + m2, fun fuel hf v T off rest s hs hd => ?_⟩
    rw [List.map_cons, List.flatten_cons, List.append_assoc] at hd
    obtain ⟨s1, k1, k2⟩ := h1 (fuel + is.length) (by omega) v T off _ s hs hd
    obtain ⟨s2, j1, j2⟩ := h2 fuel (by omega) v (T ++ [e]) _ rest s1 k1.1 (drop_prefix hd)
    rw [List.length_cons, ← Nat.add_assoc, k2, tell_spec]
    by_cases hv : listener v T e
    · refine ⟨s2, k1.trans j1, ?_⟩
      have e1 : tellAll (listener v) T (e :: es) = tellAll (listener v) (T ++ [e]) es := by rw [tellAll, if_pos hv]
      rw [if_pos hv, e1, j2, List.map_cons, List.flatten_cons, List.length_append, Nat.add_assoc]
    · refine ⟨s1, k1, ?_⟩
      have e1 : tellAll (listener v) T (e :: es) = (T ++ [e], false) := by rw [tellAll, if_neg hv]
      rw [if_neg hv, e1]
      rfl
  induction h with
  | nil =>
    refine ⟨0, fun fuel _ v T off rest s hs _ => ⟨s, Kept.refl hs, ?_⟩⟩
    simp [tellAll]
  | @define w t l str is es a1 a2 _ ih =>
    refine one ⟨0, fun fuel _ v T off rest s hs hd => ⟨s, Kept.refl hs, ?_⟩⟩ (ih ht)
    obtain ⟨r1, r2⟩ := (reads_u8 1#8).unbounded.at (bs := [1#8]) (rest := (encodeU l ++ (str ++ [0#8])) ++ rest) hd
    obtain ⟨r3, _⟩ := (reads_lineText hw (l := l) (by omega) a2).at r2
    rw [loop5]
    unfold op5
    rw [r1, Res.bind_ok]
    simp only [show (1#8).toNat = 1 from rfl]
    rw [r3, Res.bind_ok]
    simp only [andThen, setWidth_line, MacroEvent.call, MacroItem.encode, List.length_cons, List.length_nil]
    rw [show off + (0 + 1) + (encodeU l ++ (str ++ [0#8])).length = off + ((encodeU l ++ (str ++ [0#8])).length + 1) by omega]
  | @undef w t l str is es a1 a2 _ ih =>
    refine one ⟨0, fun fuel _ v T off rest s hs hd => ⟨s, Kept.refl hs, ?_⟩⟩ (ih ht)
    obtain ⟨r1, r2⟩ := (reads_u8 2#8).unbounded.at (bs := [2#8]) (rest := (encodeU l ++ (str ++ [0#8])) ++ rest) hd
    obtain ⟨r3, _⟩ := (reads_lineText hw (l := l) (by omega) a2).at r2
    rw [loop5]
    unfold op5
    rw [r1, Res.bind_ok]
    simp only [show (2#8).toNat = 2 from rfl]
    rw [r3, Res.bind_ok]
    simp only [andThen, setWidth_line, MacroEvent.call, MacroItem.encode, List.length_cons, List.length_nil]
    rw [show off + (0 + 1) + (encodeU l ++ (str ++ [0#8])).length = off + ((encodeU l ++ (str ++ [0#8])).length + 1) by omega]
  | @enter w t l n f dir is es a1 a2 a3 a4 _ ih =>
    refine one ⟨0, fun fuel _ v T off rest s hs hd => ⟨s, Kept.refl hs, ?_⟩⟩ (ih ht)
    obtain ⟨r1, r2⟩ := (reads_u8 3#8).unbounded.at (bs := [3#8]) (rest := (encodeU l ++ encodeU n) ++ rest) hd
    obtain ⟨r3, _⟩ := (reads_lineFile hw (l := l) (f := n) (by omega) a2).at r2
    obtain ⟨ls, ss, w', hwf⟩ := ht t rfl
    rw [loop5]
    unfold op5
    rw [r1, Res.bind_ok]
    simp only [show (3#8).toNat = 3 from rfl]
    rw [r3, Res.bind_ok]
    simp only [andThen, setWidth_line, MacroEvent.call, MacroItem.encode, List.length_cons, List.length_nil, Option.map_some]
    rw [fileAt_spec hwf a2 a3 a4]
    simp only
    rw [show off + (0 + 1) + (encodeU l ++ encodeU n).length = off + ((encodeU l ++ encodeU n).length + 1) by omega]
  | @leave w t is es _ ih =>
    refine one ⟨0, fun fuel _ v T off rest s hs hd => ⟨s, Kept.refl hs, ?_⟩⟩ (ih ht)
    obtain ⟨r1, _⟩ := (reads_u8 4#8).unbounded.at hd
    rw [loop5]
    unfold op5
    rw [r1, Res.bind_ok]
    simp only [show (4#8).toNat = 4 from rfl, andThen, MacroEvent.call, MacroItem.encode]
  | @defineAt w t l n str is es a0 a1 a2 a3 _ ih =>
    refine one ⟨0, fun fuel _ v T off rest s hs hd => ⟨s, Kept.refl hs, ?_⟩⟩ (ih ht)
    obtain ⟨r1, r2⟩ := (reads_u8 5#8).unbounded.at (bs := [5#8]) (rest := (encodeU l ++ leBytes (if w then 8 else 4) n) ++ rest) hd
    rw [List.append_assoc] at r2
    obtain ⟨r3, r4⟩ := (reads_uleb hw l (by omega)).unbounded.at r2
    obtain ⟨r5, _⟩ := (reads_uint (if w then 8 else 4) n (by split <;> decide) a2).unbounded.at r4
    obtain ⟨hgn, rest', hstr⟩ := a3
    have hu8 : u.dwarfLen = if w then 8 else 4 := by rw [unit_len hok hx hu a0.2, a0.1]
    rw [loop5]
    unfold op5
    rw [r1, Res.bind_ok]
    simp only [show (5#8).toNat = 5 from rfl]
    unfold lineStrp
    rw [r3, Res.bind_ok]
    simp only
    rw [hu8, r5, Res.bind_ok]
    simp only
    rw [word64 n (Nat.lt_of_lt_of_le a2 (pow_width w)), memString_prefix q.obj.d.str str rest' n hgn hstr, Res.bind_ok]
    simp only [andThen, setWidth_line, MacroEvent.call, MacroItem.encode, List.length_cons, List.length_nil, List.length_append, Res.bind_ok]
    rw [show off + (0 + 1) + (encodeU l).length + (leBytes (if w then 8 else 4) n).length = off + ((encodeU l).length + (leBytes (if w then 8 else 4) n).length + 1) by omega]
  | @undefAt w t l n str is es a0 a1 a2 a3 _ ih =>
    refine one ⟨0, fun fuel _ v T off rest s hs hd => ⟨s, Kept.refl hs, ?_⟩⟩ (ih ht)
    obtain ⟨r1, r2⟩ := (reads_u8 6#8).unbounded.at (bs := [6#8]) (rest := (encodeU l ++ leBytes (if w then 8 else 4) n) ++ rest) hd
    rw [List.append_assoc] at r2
    obtain ⟨r3, r4⟩ := (reads_uleb hw l (by omega)).unbounded.at r2
    obtain ⟨r5, _⟩ := (reads_uint (if w then 8 else 4) n (by split <;> decide) a2).unbounded.at r4
    obtain ⟨hgn, rest', hstr⟩ := a3
    have hu8 : u.dwarfLen = if w then 8 else 4 := by rw [unit_len hok hx hu a0.2, a0.1]
    rw [loop5]
    unfold op5
    rw [r1, Res.bind_ok]
    simp only [show (6#8).toNat = 6 from rfl]
    unfold lineStrp
    rw [r3, Res.bind_ok]
    simp only
    rw [hu8, r5, Res.bind_ok]
    simp only
    rw [word64 n (Nat.lt_of_lt_of_le a2 (pow_width w)), memString_prefix q.obj.d.str str rest' n hgn hstr, Res.bind_ok]
    simp only [andThen, setWidth_line, MacroEvent.call, MacroItem.encode, List.length_cons, List.length_nil, List.length_append, Res.bind_ok]
    rw [show off + (0 + 1) + (encodeU l).length + (leBytes (if w then 8 else 4) n).length = off + ((encodeU l).length + (leBytes (if w then 8 else 4) n).length + 1) by omega]
  | @defineNo w t l n str is es a1 a2 _ ih =>
    refine one ⟨1, fun fuel hf v T off rest s hs hd => ?_⟩ (ih ht)
    obtain ⟨r1, r2⟩ := (reads_u8 0xb#8).unbounded.at (bs := [0xb#8]) (rest := (encodeU l ++ encodeU n) ++ rest) hd
    rw [List.append_assoc] at r2
    obtain ⟨r3, r4⟩ := (reads_uleb hw l (by omega)).unbounded.at r2
    obtain ⟨r5, _⟩ := (reads_uleb hw n a2.1).unbounded.at r4
    obtain ⟨s', g1, g2⟩ := strx_spec hok hfit hx hu a2 hs hf
    refine ⟨s', g2, ?_⟩
    rw [loop5]
    unfold op5
    rw [r1, Res.bind_ok]
    simp only [show (0xb#8).toNat = 0xb from rfl]
    unfold lineStrx
    rw [r3, Res.bind_ok]
    simp only
    rw [r5, Res.bind_ok]
    simp only
    rw [g1, Res.bind_ok]
    simp only [andThen, setWidth_line, MacroEvent.call, MacroItem.encode, List.length_cons, List.length_nil, List.length_append, Res.bind_ok]
    rw [show off + (0 + 1) + (encodeU l).length + (encodeU n).length = off + ((encodeU l).length + (encodeU n).length + 1) by omega]
  | @undefNo w t l n str is es a1 a2 _ ih =>
    refine one ⟨1, fun fuel hf v T off rest s hs hd => ?_⟩ (ih ht)
    obtain ⟨r1, r2⟩ := (reads_u8 0xc#8).unbounded.at (bs := [0xc#8]) (rest := (encodeU l ++ encodeU n) ++ rest) hd
    rw [List.append_assoc] at r2
    obtain ⟨r3, r4⟩ := (reads_uleb hw l (by omega)).unbounded.at r2
    obtain ⟨r5, _⟩ := (reads_uleb hw n a2.1).unbounded.at r4
    obtain ⟨s', g1, g2⟩ := strx_spec hok hfit hx hu a2 hs hf
    refine ⟨s', g2, ?_⟩
    rw [loop5]
    unfold op5
    rw [r1, Res.bind_ok]
    simp only [show (0xc#8).toNat = 0xc from rfl]
    unfold lineStrx
    rw [r3, Res.bind_ok]
    simp only
    rw [r5, Res.bind_ok]
    simp only
    rw [g1, Res.bind_ok]
    simp only [andThen, setWidth_line, MacroEvent.call, MacroItem.encode, List.length_cons, List.length_nil, List.length_append, Res.bind_ok]
    rw [show off + (0 + 1) + (encodeU l).length + (encodeU n).length = off + ((encodeU l).length + (encodeU n).length + 1) by omega]
  | @imports w t n m t' is es es' a1 a2 a3 _ _ ih1 ih2 =>
    obtain ⟨hwf, rest0, hd0⟩ := a2
    have hd1 : sec.drop n = m.header ++ (m.itemBytes ++ ([0#8] ++ rest0)) := by rw [hd0]; unfold MacroList.encode; simp only [List.append_assoc]
    obtain ⟨g1, g2⟩ := nest5_spec hok hline hx hu hsec hw (Nat.lt_of_lt_of_le a1 (pow_width w)) hwf hd1 a3
    obtain ⟨m1, ih1⟩ := ih1 g2
    obtain ⟨m2, ih2⟩ := ih2 ht
    refine ⟨m1 + m2 + m.items.length + 1, fun fuel hf v T off rest s hs hd => ?_⟩
    rw [List.map_cons, List.flatten_cons, List.append_assoc] at hd
    obtain ⟨r1, r2⟩ := (reads_u8 7#8).unbounded.at (bs := [7#8]) (rest := leBytes (if w then 8 else 4) n ++ ((is.map (MacroItem.encode (if w then 8 else 4))).flatten ++ rest)) hd
    obtain ⟨r3, r4⟩ := (reads_uint (if w then 8 else 4) n (by split <;> decide) a1).unbounded.at r2
    have hd2 := drop_prefix hd1
    unfold MacroList.itemBytes MacroList.width at hd2
    obtain ⟨s1, k1, k2⟩ := ih1 (fuel + is.length - m.items.length) (by omega) v T _ _ s hs hd2
    rw [show fuel + is.length - m.items.length + m.items.length = fuel + is.length by omega] at k2
    have hd3 := drop_prefix hd2
    obtain ⟨r5, _⟩ := (reads_u8 0#8).unbounded.at hd3
    have hend : ∀ told, loop5 q u v (fuel + is.length - m.items.length) (t'.map tablesOf) (if m.wide then 8 else 4) sec (n + m.header.length + (m.items.map (MacroItem.encode (if m.wide then 8 else 4))).flatten.length) told s1 =
        ⟨told, some (.ok (true, s1))⟩ := by
      intro told
      obtain ⟨f, hf⟩ : ∃ f, fuel + is.length - m.items.length = f + 1 := ⟨fuel + is.length - m.items.length - 1, by omega⟩
      rw [hf, loop5]
      unfold op5
      rw [r5, Res.bind_ok]
      rfl
    rw [hend] at k2
    obtain ⟨s2, j1, j2⟩ := ih2 fuel (by omega) v (tellAll (listener v) T es').1 _ rest s1 k1.1 r4
    have hlen : off + (0 + 1) + (leBytes (if w then 8 else 4) n).length = off + ((leBytes (if w then 8 else 4) n).length + 1) := by omega
    rw [List.length_cons, ← Nat.add_assoc, loop5]
    unfold op5
    rw [r1, Res.bind_ok]
    simp only [show (7#8).toNat = 7 from rfl]
    rw [r3, Res.bind_ok]
    simp only [andThen]
    rw [g1]
    simp only [MacroList.width]
    rw [k2, tellAll_append]
    by_cases hv : (tellAll (listener v) T es').2 = true
    · refine ⟨s2, k1.trans j1, ?_⟩
      rw [if_pos hv, if_pos hv]
      simp only
      rw [j2, List.map_cons, List.flatten_cons, List.length_append]
      simp only [MacroItem.encode, List.length_cons, List.length_nil, Nat.add_assoc, Nat.add_comm 1]
    · refine ⟨s1, k1, ?_⟩
      rw [if_neg hv, if_neg hv, if_neg hv]

/-! ### Finding the list -/

include hok hx hu in
theorem rootInt_spec {name n : Nat} (h : RootInt x name n) {s : IState} (hs : ISt q.obj.d xs s) {y : DIE} (hy : GoodDie q.obj.d xs s y uo x (uo + x.rootPos) x.tree.root) {fuel : Nat} (h1 : 1 ≤ fuel) :
    ∃ a w, getAttr q.obj.d fuel y name false s = .ok (some a, s) ∧ toInt (some a) s = .ok w ∧ w = BitVec.ofNat 64 n ∧ n < 2 ^ 64 := by
  obtain ⟨i, a, v, l1, l2, l3, l4⟩ := h
  obtain ⟨w, w1, w2⟩ := toInt_spec hok hs hy l2 l3 l4
  have hn : w.toNat = n := by
    have h2 := BitVec.toInt_eq_toNat_cond w
    have h3 := w.isLt
    rw [w2] at h2
    change (n : Int) = _ at h2
    split at h2 <;> omega
  refine ⟨_, w, getAttr_own hok hs hy l1 h1 false, w1, ?_, by have := w.isLt; omega⟩
  rw [← hn]; simp

include hok hx hu hsec hw in
theorem getMacros5 {n : Nat} (h : MacrosAt x n) {m : MacroList} (hm : m.WF) {rest : List Byte} (hd : sec.drop n = m.header ++ rest) {s : IState} (hs : ISt q.obj.d xs s) {fuel : Nat} (h1 : 1 ≤ fuel) :
    ∃ s', getMacros q fuel u s = .ok (some ⟨5, m.width, MacroList.lineOff m, MacroList.table m, some (sec, n + m.header.length)⟩, s') ∧ Kept q.obj.d xs s s' := by
  obtain ⟨y, s1, g1, g2, g3⟩ := root_good hok hs hx hu
  refine ⟨s1, ?_, g2⟩
  have fin : ∀ {a : Attr} {w : BitVec 64}, toInt (some a) s1 = .ok w → w = BitVec.ofNat 64 n → n < 2 ^ 64 → readAt q 5 a s1 =
      .ok (some ⟨5, m.width, MacroList.lineOff m, MacroList.table m, some (sec, n + m.header.length)⟩, s1) := by
    intro a w k1 k2 k3
    unfold readAt
    rw [k1, Res.bind_ok, if_pos (Nat.le_refl 5), k2, readD5_spec hsec hw k3 hm hd, Res.bind_ok]
  unfold getMacros
  rw [g1, Res.bind_ok]
  simp only
  rcases h with h | ⟨h', h⟩
  · obtain ⟨a, w, k1, k2, k3, k4⟩ := rootInt_spec hok hx hu h g2.1 g3 h1
    rw [k1, Res.bind_ok]
    exact fin k2 k3 k4
  · obtain ⟨a, w, k1, k2, k3, k4⟩ := rootInt_spec hok hx hu h g2.1 g3 h1
    rw [getAttr_no hok g2.1 g3 h'.1 h'.2.1 h'.2.2 h1, Res.bind_ok]
    simp only
    rw [k1, Res.bind_ok]
    exact fin k2 k3 k4

include hok hx hu in
theorem getMacros4 {n : Nat} (h : MacinfoAt x n) {s : IState} (hs : ISt q.obj.d xs s) {fuel : Nat} (h1 : 1 ≤ fuel) :
    ∃ s', getMacros q fuel u s = .ok (some ⟨4, 0, BitVec.allOnes 32, fun _ => none, q.macinfo.map (fun sec => (sec, n))⟩, s') ∧ Kept q.obj.d xs s s' := by
  obtain ⟨y, s1, g1, g2, g3⟩ := root_good hok hs hx hu
  refine ⟨s1, ?_, g2⟩
  obtain ⟨h2, h3, h⟩ := h
  obtain ⟨a, w, k1, k2, k3, k4⟩ := rootInt_spec hok hx hu h g2.1 g3 h1
  unfold getMacros
  rw [g1, Res.bind_ok]
  simp only
  rw [getAttr_no hok g2.1 g3 h2.1 h2.2.1 h2.2.2 h1, Res.bind_ok]
  simp only
  rw [getAttr_no hok g2.1 g3 h3.1 h3.2.1 h3.2.2 h1, Res.bind_ok]
  simp only
  rw [k1, Res.bind_ok]
  simp only
  unfold readAt
  rw [k2, Res.bind_ok, if_neg (by decide), k3]
  unfold readD4
  rw [word64 n k4, Res.bind_ok]

include hok hx hu in
theorem getMacros_none (h : RootHasNo x 0x2119 ∧ RootHasNo x 0x79 ∧ RootHasNo x 0x43) {s : IState} (hs : ISt q.obj.d xs s) {fuel : Nat} (h1 : 1 ≤ fuel) :
    ∃ s', getMacros q fuel u s = .ok (none, s') ∧ Kept q.obj.d xs s s' := by
  obtain ⟨y, s1, g1, g2, g3⟩ := root_good hok hs hx hu
  refine ⟨s1, ?_, g2⟩
  obtain ⟨h2, h3, h⟩ := h
  unfold getMacros
  rw [g1, Res.bind_ok]
  simp only
  rw [getAttr_no hok g2.1 g3 h2.1 h2.2.1 h2.2.2 h1, Res.bind_ok]
  simp only
  rw [getAttr_no hok g2.1 g3 h3.1 h3.2.1 h3.2.2 h1, Res.bind_ok]
  simp only
  rw [getAttr_no hok g2.1 g3 h.1 h.2.1 h.2.2 h1, Res.bind_ok]

/-! ### The older lists -/

/-- Definitions. -/
def isText : MacroEvent → Bool
  | .define .. | .undef .. => true
  | _ => false

/-- One who is not listened to about definitions. -/
def unheeded (v : Visitor) : List MacroEvent → MacroEvent → Bool := fun told e => isText e || listener v told e

theorem macinfo_visited {isec : List Byte} (hw : isec.length < W64) {t : Option LineTables} (ht : TablesOk t) {is : List MacinfoItem} {es : List MacroEvent} (h : MacinfoSays t is es) (s : IState) (v : Visitor) :
    ∀ fuel (T : List MacroEvent) off rest, isec.drop off = (is.map MacinfoItem.encode).flatten ++ rest →
      loop4 v (t.map tablesOf) isec s (fuel + is.length) off (calls T) =
        if (tellAll (unheeded v) T es).2 then loop4 v (t.map tablesOf) isec s fuel (off + (is.map MacinfoItem.encode).flatten.length) (calls (tellAll (unheeded v) T es).1)
        else ⟨calls (tellAll (unheeded v) T es).1, some (.ok (false, s))⟩ := by
  induction h with
  | nil => intro fuel T off rest _; simp [tellAll]
  | @define l str is es a1 a2 _ ih =>
    intro fuel T off rest hd
    rw [List.map_cons, List.flatten_cons, List.append_assoc] at hd
    obtain ⟨r1, r2⟩ := (reads_u8 1#8).unbounded.at (bs := [1#8]) (rest := (encodeU l ++ (str ++ [0#8])) ++ ((is.map MacinfoItem.encode).flatten ++ rest)) hd
    obtain ⟨r3, r4⟩ := (reads_lineText hw (l := l) (by omega) a2).at r2
    have := ih fuel (T ++ [.define l str]) _ rest r4
    have e1 : tellAll (unheeded v) T (.define l str :: es) = tellAll (unheeded v) (T ++ [.define l str]) es := by rw [tellAll, if_pos (by simp [unheeded, isText])]
    rw [List.length_cons, ← Nat.add_assoc, loop4]
    unfold op4
    rw [Parse.bind_ok r1]
    simp only [show (1#8).toNat = 1 from rfl]
    rw [Parse.bind_ok r3]
    simp only [andThen, setWidth_line, Parse.pure_apply]
    have e2 : calls T ++ [Event.define (BitVec.ofNat 32 l) str] = calls (T ++ [.define l str]) := by simp [calls, MacroEvent.call]
    have hlen : off + [1#8].length + (encodeU l ++ (str ++ [0#8])).length + (is.map MacinfoItem.encode).flatten.length = off + ((MacinfoItem.define l str :: is).map MacinfoItem.encode).flatten.length := by
      simp only [List.map_cons, List.flatten_cons, MacinfoItem.encode, List.length_cons, List.length_nil, List.length_append, List.cons_append]
      omega
    rw [e1, e2, this, hlen]
  | @undef l str is es a1 a2 _ ih =>
    intro fuel T off rest hd
    rw [List.map_cons, List.flatten_cons, List.append_assoc] at hd
    obtain ⟨r1, r2⟩ := (reads_u8 2#8).unbounded.at (bs := [2#8]) (rest := (encodeU l ++ (str ++ [0#8])) ++ ((is.map MacinfoItem.encode).flatten ++ rest)) hd
    obtain ⟨r3, r4⟩ := (reads_lineText hw (l := l) (by omega) a2).at r2
    have := ih fuel (T ++ [.undef l str]) _ rest r4
    have e1 : tellAll (unheeded v) T (.undef l str :: es) = tellAll (unheeded v) (T ++ [.undef l str]) es := by rw [tellAll, if_pos (by simp [unheeded, isText])]
    rw [List.length_cons, ← Nat.add_assoc, loop4]
    unfold op4
    rw [Parse.bind_ok r1]
    simp only [show (2#8).toNat = 2 from rfl]
    rw [Parse.bind_ok r3]
    simp only [andThen, setWidth_line, Parse.pure_apply]
    have e2 : calls T ++ [Event.undef (BitVec.ofNat 32 l) str] = calls (T ++ [.undef l str]) := by simp [calls, MacroEvent.call]
    have hlen : off + [2#8].length + (encodeU l ++ (str ++ [0#8])).length + (is.map MacinfoItem.encode).flatten.length = off + ((MacinfoItem.undef l str :: is).map MacinfoItem.encode).flatten.length := by
      simp only [List.map_cons, List.flatten_cons, MacinfoItem.encode, List.length_cons, List.length_nil, List.length_append, List.cons_append]
      omega
    rw [e1, e2, this, hlen]
  | @enter l n f dir is es tt a0 a1 a2 a3 a4 _ ih =>
    subst a0
    intro fuel T off rest hd
    rw [List.map_cons, List.flatten_cons, List.append_assoc] at hd
    obtain ⟨r1, r2⟩ := (reads_u8 3#8).unbounded.at (bs := [3#8]) (rest := (encodeU l ++ encodeU n) ++ ((is.map MacinfoItem.encode).flatten ++ rest)) hd
    obtain ⟨r3, r4⟩ := (reads_lineFile hw (l := l) (f := n) (by omega) a2).at r2
    obtain ⟨ls, ss, w', hwf⟩ := ht tt rfl
    have := ih fuel (T ++ [.enter l dir f]) _ rest r4
    rw [List.length_cons, ← Nat.add_assoc, loop4]
    unfold op4
    rw [Parse.bind_ok r1]
    simp only [show (3#8).toNat = 3 from rfl]
    rw [Parse.bind_ok r3]
    simp only [andThen, setWidth_line, Parse.pure_apply, Option.map_some]
    rw [fileAt_spec hwf a2 a3 a4]
    simp only
    rw [show Event.startFile (BitVec.ofNat 32 l) dir ⟨f.name, BitVec.ofNat 32 f.dir⟩ = MacroEvent.call (.enter l dir f) from rfl, tell_spec]
    by_cases hv : listener v T (.enter l dir f)
    · have e1 : tellAll (unheeded v) T (.enter l dir f :: es) = tellAll (unheeded v) (T ++ [.enter l dir f]) es := by rw [tellAll, if_pos (by simp [unheeded, isText, hv])]
      rw [if_pos hv, e1]
      simp only [Option.map_some] at this
      have hlen : off + [3#8].length + (encodeU l ++ encodeU n).length + (is.map MacinfoItem.encode).flatten.length = off + ((MacinfoItem.enter l n :: is).map MacinfoItem.encode).flatten.length := by
        simp only [List.map_cons, List.flatten_cons, MacinfoItem.encode, List.length_cons, List.length_nil, List.length_append, List.cons_append]
        omega
      rw [this, hlen]
    · have e1 : tellAll (unheeded v) T (.enter l dir f :: es) = (T ++ [.enter l dir f], false) := by rw [tellAll, if_neg (by simp [unheeded, isText, hv])]
      rw [if_neg hv, e1]
      rfl
  | @leave is es _ ih =>
    intro fuel T off rest hd
    rw [List.map_cons, List.flatten_cons, List.append_assoc] at hd
    obtain ⟨r1, r2⟩ := (reads_u8 4#8).unbounded.at (bs := [4#8]) hd
    have := ih fuel (T ++ [.leave]) _ rest r2
    rw [List.length_cons, ← Nat.add_assoc, loop4]
    unfold op4
    rw [Parse.bind_ok r1]
    simp only [show (4#8).toNat = 4 from rfl]
    simp only [andThen, Parse.pure_apply]
    rw [show Event.endFile = MacroEvent.call .leave from rfl, tell_spec]
    by_cases hv : listener v T .leave
    · have e1 : tellAll (unheeded v) T (.leave :: es) = tellAll (unheeded v) (T ++ [.leave]) es := by rw [tellAll, if_pos (by simp [unheeded, isText, hv])]
      rw [if_pos hv, e1, this, List.map_cons, List.flatten_cons, List.length_append]
      simp only [MacinfoItem.encode, Nat.add_assoc]
    · have e1 : tellAll (unheeded v) T (.leave :: es) = (T ++ [.leave], false) := by rw [tellAll, if_neg (by simp [unheeded, isText, hv])]
      rw [if_neg hv, e1]
      rfl

include hok hline hx hu in
theorem unitFiles_spec {t : Option LineTables} (h : UnitFiles Supported q.obj.d q.obj.line x t) {s : IState} (hs : ISt q.obj.d xs s) {fuel : Nat} (h1 : 1 ≤ fuel) :
    (∃ s', unitLines q.obj fuel u s = .ok (t.map tablesOf, s') ∧ Kept q.obj.d xs s s') ∧ TablesOk t := by
  cases t with
  | some t =>
    obtain ⟨lsec, lt, k1, k2, k3, rfl⟩ := h
    obtain ⟨s', g1, g2⟩ := unitLines_spec hok rfl k1 (hline lsec k1) k2 k3 hs hx hu h1
    exact ⟨⟨s', g1, g2⟩, fun tt h => by injection h with h; subst h; exact ⟨_, _, _, k2.2.1.tables⟩⟩
  | none =>
    refine ⟨?_, fun _ h => nomatch h⟩
    obtain ⟨y, s1, g1, g2, g3⟩ := root_good hok hs hx hu
    obtain ⟨r, r1, r2, _⟩ := good_raw hok g2.1 g3
    refine ⟨s1, ?_, g2⟩
    unfold unitLines
    rw [g1, Res.bind_ok]
    simp only
    rw [r1, Res.bind_ok]
    rcases h with h | h
    · split
      · rw [getAttr_no hok g2.1 g3 h.1 h.2.1 h.2.2 h1, Res.bind_ok]
        rfl
      · rfl
    · rw [if_neg (by
        rw [r2]
        unfold isUnitTag at h
        simp only [Bool.or_eq_false_iff, decide_eq_false_iff_not] at h
        exact fun h' => h'.elim h.2 h.1)]
      rfl

end

end Pstack.Props
