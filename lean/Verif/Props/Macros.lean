import Verif.Proof.Macros
import Verif.Props.StackText
/-
Property theorems C82 and C83: macro information (Spec/Macros.lean), of a unit after any history.
-/
namespace Pstack.Props
open Pstack.Reader Pstack.Spec Pstack.Dwarf Pstack.Die Pstack.Lines Pstack.StackText Pstack.Macros

section
variable {q : MacroSecs} {xs : List DieUnit} (hob : ObjOk q.obj xs) {cl : IClient} (hc : IHistory q.obj.d xs cl)
  {uo : Nat} {x : DieUnit} (hx : (uo, x) ∈ placeUnits 0 xs) {u : Die.Unit} (hu : openUnit q.obj.d.info q.obj.d.abbr uo = .ok u)

section
variable {sec : List Byte} (hsec : q.macros = some sec) (hw : sec.length < W64) {n : Nat} (hn : MacrosAt x n)

include hob hc hx hu hsec hw hn in
/-- The visit begins at the first entry. -/
theorem visit_start {m : MacroList} (hm : m.WF) {rest : List Byte} (hd : sec.drop n = m.header ++ rest) {t : Option LineTables} (ht : MacroLines Supported q.obj.d q.obj.line x m.lines t) {fuel : Nat} (h1 : 1 ≤ fuel) :
    ∃ mac s, getMacros q fuel u cl.st = .ok (some mac, s) ∧ ISt q.obj.d xs s ∧ TablesOk t ∧ mac.opcodes = MacroList.table m ∧
      ∀ v, visit q fuel u mac v s = loop5 q u v fuel (t.map tablesOf) (if m.wide then 8 else 4) sec (n + m.header.length) (calls []) s := by
  obtain ⟨s, g1, g2⟩ := getMacros5 hob.ok hx hu hsec hw hn hm hd (igood_history hob.ok hob.refs hc).st h1
  obtain ⟨k1, k2⟩ := lines5_spec hob.ok hob.line hx hu (m := ⟨5, m.width, MacroList.lineOff m, MacroList.table m, some (sec, n + m.header.length)⟩) rfl ht
  refine ⟨_, s, g1, g2.1, k2, rfl, fun v => ?_⟩
  unfold visit visit5
  rw [if_pos (Nat.le_refl 5)]
  unfold start5
  rw [k1, Res.bind_ok]
  rfl

include hob hc hx hu hsec hw hn in
/-- C82. The macros of a unit are those of the list its root refers to: whoever visits them is told, in this order, of each definition and of each file that is entered or left, those of imported lists in
their place, with line, text, directory and file, until they say to stop; and the result is whether they did not.
Missing: text by position in lists whose offsets have another size than those of the unit (`C82_not_width`); lists with entries of vendors (`C82_not_operands`); line tables at 2^31 and above
(`C82_not_offset`); and what C27 misses. -/
theorem C82_visit_partial {m : MacroList} (hm : MacroListAt sec n m) {t : Option LineTables} (ht : MacroLines Supported q.obj.d q.obj.line x m.lines t) {es : List MacroEvent}
    (h : MacroSays (sameSize x) Supported q.obj.d q.obj.line sec x m.wide t m.items es) :
    ∃ k, ∀ fuel, k ≤ fuel → ∃ mac s, getMacros q fuel u cl.st = .ok (some mac, s) ∧
      ∀ v, ∃ s', visit q fuel u mac v s = ⟨((tellAll (listener v) [] es).1).map MacroEvent.call, some (.ok ((tellAll (listener v) [] es).2, s'))⟩ := by
  obtain ⟨hwf, rest, hd⟩ := hm
  have hd1 : sec.drop n = m.header ++ (m.itemBytes ++ ([0#8] ++ rest)) := by rw [hd]; unfold MacroList.encode; simp only [List.append_assoc]
  have hd2 := drop_prefix hd1
  unfold MacroList.itemBytes MacroList.width at hd2
  obtain ⟨_, _, _, _, hok, _⟩ := visit_start hob hc hx hu hsec hw hn hwf hd1 ht (Nat.le_refl 1)
  obtain ⟨k, hk⟩ := items_visited hob.ok hob.fit hob.line hx hu hsec hw h hok
  refine ⟨k + m.items.length + 1, fun fuel hf => ?_⟩
  obtain ⟨mac, s, g1, g2, g3, _, g4⟩ := visit_start hob hc hx hu hsec hw hn hwf hd1 ht (fuel := fuel) (by omega)
  refine ⟨mac, s, g1, fun v => ?_⟩
  obtain ⟨s', j1, j2⟩ := hk (fuel - m.items.length) (by omega) v [] _ _ s g2 hd2
  refine ⟨s', ?_⟩
  rw [g4 v]
  rw [show fuel - m.items.length + m.items.length = fuel by omega] at j2
  rw [j2]
  obtain ⟨r5, _⟩ := (reads_u8 0#8).unbounded.at (drop_prefix hd2)
  split
  · rename_i hv
    obtain ⟨f, hf⟩ : ∃ f, fuel - m.items.length = f + 1 := ⟨fuel - m.items.length - 1, by omega⟩
    rw [hf, loop5]
    unfold op5
    rw [r5, Res.bind_ok, hv]
    rfl
  · rename_i hv
    rw [Bool.eq_false_iff.2 hv]

omit hob hc hx hu hsec hw hn in
theorem vendorMap_other (l : List (Nat × List Byte)) (m : Byte → Option (List Byte)) (c : Byte) (h : ∀ p ∈ l, BitVec.ofNat 8 p.1 ≠ c) : vendorMap l m c = m c := by
  induction l generalizing m with
  | nil => rfl
  | cons p l ih =>
    obtain ⟨a, b⟩ := p
    rw [vendorMap, ih _ (fun q hq => h q (List.mem_cons_of_mem _ hq)), addForms, if_neg (fun e => h (a, b) List.mem_cons_self e.symm)]

omit hob hc hx hu hsec hw hn in
theorem vendorMap_mem (l : List (Nat × List Byte)) (m : Byte → Option (List Byte)) (hl : ∀ p ∈ l, p.1 < 256) (hnd : (l.map (·.1)).Nodup) (hm : ∀ p ∈ l, m (BitVec.ofNat 8 p.1) = none) :
    ∀ p ∈ l, vendorMap l m (BitVec.ofNat 8 p.1) = some p.2 := by
  have inj : ∀ a b : Nat, a < 256 → b < 256 → BitVec.ofNat 8 a = BitVec.ofNat 8 b → a = b := by
    intro a b ha hb h
    have := congrArg BitVec.toNat h
    rw [BitVec.toNat_ofNat, BitVec.toNat_ofNat] at this
    omega
  induction l generalizing m with
  | nil => intro p hp; cases hp
  | cons p l ih =>
    obtain ⟨a, b⟩ := p
    rw [List.map_cons, List.nodup_cons] at hnd
    have hne : ∀ q ∈ l, q.1 ≠ a := fun q hq e => hnd.1 (List.mem_map.2 ⟨q, hq, e⟩)
    have ha := hl (a, b) List.mem_cons_self
    intro p hp
    rw [vendorMap]
    rcases List.mem_cons.1 hp with rfl | hp
    · rw [vendorMap_other l _ _ (fun q hq e => hne q hq (inj _ _ (hl q (List.mem_cons_of_mem _ hq)) ha e)), addForms, if_pos rfl, hm (a, b) List.mem_cons_self]
      rfl
    · refine ih _ (fun q hq => hl q (List.mem_cons_of_mem _ hq)) hnd.2 (fun q hq => ?_) p hp
      rw [addForms, if_neg (fun e => hne q hq (inj _ _ (hl q (List.mem_cons_of_mem _ hq)) ha e))]
      exact hm q (List.mem_cons_of_mem _ hq)

include hob hc hx hu hsec hw hn in
/-- And `opcodes` has the forms of the operands of vendors' entries, as the header of the list says. -/
theorem C82_vendor {m : MacroList} (hm : MacroListAt sec n m) {t : Option LineTables} (ht : MacroLines Supported q.obj.d q.obj.line x m.lines t) {fuel : Nat} (h1 : 1 ≤ fuel) :
    ∃ mac s, getMacros q fuel u cl.st = .ok (some mac, s) ∧ (m.vendor = none → ∀ c, mac.opcodes c = none) ∧
      ∀ l, m.vendor = some l → (l.map (·.1)).Nodup → (∀ p ∈ l, mac.opcodes (BitVec.ofNat 8 p.1) = some p.2) ∧ ∀ c, (∀ p ∈ l, BitVec.ofNat 8 p.1 ≠ c) → mac.opcodes c = none := by
  obtain ⟨hwf, rest, hd⟩ := hm
  have hd1 : sec.drop n = m.header ++ (m.itemBytes ++ ([0#8] ++ rest)) := by rw [hd]; unfold MacroList.encode; simp only [List.append_assoc]
  obtain ⟨mac, s, g1, _, _, g4, _⟩ := visit_start hob hc hx hu hsec hw hn hwf hd1 ht h1
  refine ⟨mac, s, g1, ?_, ?_⟩
  · intro h c
    rw [g4]
    unfold MacroList.table
    rw [h]
  · intro l h hnd
    rw [g4]
    unfold MacroList.table
    rw [h]
    exact ⟨vendorMap_mem l _ (fun p hp => ((hwf.vendor l h).2 p hp).1) hnd (fun _ _ => rfl), fun c hc => vendorMap_other l _ c hc⟩

/-! ### Where it does not hold -/

section
variable {m : MacroList} (hm : m.WF) {t : Option LineTables} (ht : MacroLines Supported q.obj.d q.obj.line x m.lines t) {pre : List MacroItem} {es : List MacroEvent}
  (hpre : MacroSays (sameSize x) Supported q.obj.d q.obj.line sec x m.wide t pre es)

include hob hc hx hu hsec hw hn hm ht hpre in
/-- Some entries are visited. -/
theorem visit_some {tail : List Byte} (hd : sec.drop n = m.header ++ ((pre.map (MacroItem.encode m.width)).flatten ++ tail)) :
    ∃ k, ∀ fuel, k ≤ fuel → ∃ mac s, getMacros q fuel u cl.st = .ok (some mac, s) ∧
      ∀ v, (tellAll (listener v) [] es).2 = true → ∃ s' f off, 3 ≤ f ∧ sec.drop off = tail ∧
        visit q fuel u mac v s = loop5 q u v f (t.map tablesOf) m.width sec off (calls (tellAll (listener v) [] es).1) s' := by
  have hd2 := drop_prefix hd
  have hd3 := drop_prefix hd2
  obtain ⟨_, _, _, _, hok, _⟩ := visit_start hob hc hx hu hsec hw hn hm hd ht (Nat.le_refl 1)
  obtain ⟨k, hk⟩ := items_visited hob.ok hob.fit hob.line hx hu hsec hw hpre hok
  refine ⟨k + pre.length + 3, fun fuel hf => ?_⟩
  obtain ⟨mac, s, g1, g2, _, _, g4⟩ := visit_start hob hc hx hu hsec hw hn hm hd ht (fuel := fuel) (by omega)
  refine ⟨mac, s, g1, fun v hv => ?_⟩
  obtain ⟨s', j1, j2⟩ := hk (fuel - pre.length) (by omega) v [] _ _ s g2 hd2
  refine ⟨s', fuel - pre.length, _, by omega, hd3, ?_⟩
  rw [g4 v]
  rw [show fuel - pre.length + pre.length = fuel by omega] at j2
  rw [j2, if_pos hv]
  rfl

/-- A visitor that never says to stop. -/
def Patient (v : Visitor) : Prop := ∀ told e, v told e = true

omit hob hc hx hu hsec hw hn in
theorem patient_one {v : Visitor} (h : Patient v) (T : List MacroEvent) (e : MacroEvent) : listener v T e = true := h _ _

omit hob hc hx hu hsec hw hn in
theorem patient_all {v : Visitor} (h : Patient v) (T es : List MacroEvent) : tellAll (listener v) T es = (T ++ es, true) := by
  induction es generalizing T with
  | nil => simp [tellAll]
  | cons e es ih =>
    rw [tellAll, if_pos (show listener v T e = true from h _ _), ih]
    simp

omit hob hc hx hu hw hn in
theorem getu8_end {d : List Byte} {off : Nat} (h : d.drop off = []) : getu8 d off = .exc := by
  have : d.length ≤ off := by simpa using h
  unfold getu8 
  show Res.bind _ _ = _
  unfold getBytes
  rw [if_neg (by decide), if_neg (by omega)]
  rfl

include hob hc hx hu hsec hw hn hm ht hpre in
/-- A list that does not end before the section does is read past the end. -/
theorem C82_not_end (hd : sec.drop n = m.header ++ (pre.map (MacroItem.encode m.width)).flatten) :
    ∃ k, ∀ fuel, k ≤ fuel → ∃ mac s, getMacros q fuel u cl.st = .ok (some mac, s) ∧ ∀ v, Patient v → visit q fuel u mac v s = ⟨es.map MacroEvent.call, some .ub⟩ := by
  obtain ⟨k, hk⟩ := visit_some hob hc hx hu hsec hw hn hm ht hpre (tail := []) (by rw [hd, List.append_nil])
  refine ⟨k, fun fuel hf => ?_⟩
  obtain ⟨mac, s, g1, g2⟩ := hk fuel hf
  refine ⟨mac, s, g1, fun v hv => ?_⟩
  obtain ⟨s', f, off, j1, j2, j3⟩ := g2 v (by rw [patient_all hv])
  obtain ⟨f, rfl⟩ : ∃ f', f = f' + 1 := ⟨f - 1, by omega⟩
  rw [j3, loop5, patient_all hv]
  have e : op5 q f u m.width sec off s' = .ub := by
    unfold op5 unbounded
    rw [getu8_end j2]
    rfl
  rw [e]
  rfl

include hob hc hx hu hsec hw hn hm ht hpre in
/-- In a list that has no line table, an entry for a file that is entered dereferences a null pointer. -/
theorem C82_not_lines (hno : m.lines = none) {l i : Nat} (hl : l < 2 ^ 31) (hi : i < 2 ^ 64) {rest : List Byte}
    (hd : sec.drop n = m.header ++ ((pre.map (MacroItem.encode m.width)).flatten ++ ((MacroItem.enter l i).encode m.width ++ rest))) :
    ∃ k, ∀ fuel, k ≤ fuel → ∃ mac s, getMacros q fuel u cl.st = .ok (some mac, s) ∧ ∀ v, Patient v → visit q fuel u mac v s = ⟨es.map MacroEvent.call, some .ub⟩ := by
  obtain ⟨k, hk⟩ := visit_some hob hc hx hu hsec hw hn hm ht hpre hd
  refine ⟨k, fun fuel hf => ?_⟩
  obtain ⟨mac, s, g1, g2⟩ := hk fuel hf
  refine ⟨mac, s, g1, fun v hv => ?_⟩
  obtain ⟨s', f, off, j1, j2, j3⟩ := g2 v (by rw [patient_all hv])
  obtain ⟨f, rfl⟩ : ∃ f', f = f' + 1 := ⟨f - 1, by omega⟩
  rw [hno] at ht
  have ht : t = none := ht
  subst ht
  obtain ⟨r1, r2⟩ := (reads_u8 3#8).unbounded.at (bs := [3#8]) (rest := (encodeU l ++ encodeU i) ++ rest) j2
  obtain ⟨r3, _⟩ := (reads_lineFile hw (l := l) (f := i) (by omega) hi).at r2
  rw [j3, loop5, patient_all hv]
  unfold op5
  rw [r1, Res.bind_ok]
  simp only [show (3#8).toNat = 3 from rfl]
  rw [r3, Res.bind_ok]
  rfl

include hob hc hx hu hsec hw hn hm ht hpre in
/-- Operands of a vendor's entry are not skipped, though the header says what they are: here its one byte is read as an entry, and a file is left that was not entered. -/
theorem C82_not_operands {c : Nat} (hc0 : c < 256) (hcv : c = 8 ∨ c = 9 ∨ c = 10 ∨ 12 < c) (_ : m.vendor = some [(c, [0x0b#8])]) {rest : List Byte}
    (hd : sec.drop n = m.header ++ ((pre.map (MacroItem.encode m.width)).flatten ++ ((MacroItem.other c [4#8]).encode m.width ++ ([0#8] ++ rest)))) :
    ∃ k, ∀ fuel, k ≤ fuel → ∃ mac s, getMacros q fuel u cl.st = .ok (some mac, s) ∧ ∀ v, Patient v → ∃ s', visit q fuel u mac v s = ⟨(es ++ [MacroEvent.leave]).map MacroEvent.call, some (.ok (true, s'))⟩ := by
  obtain ⟨k, hk⟩ := visit_some hob hc hx hu hsec hw hn hm ht hpre hd
  refine ⟨k, fun fuel hf => ?_⟩
  obtain ⟨mac, s, g1, g2⟩ := hk fuel hf
  refine ⟨mac, s, g1, fun v hv => ?_⟩
  obtain ⟨s', f, off, j1, j2, j3⟩ := g2 v (by rw [patient_all hv])
  obtain ⟨f, rfl⟩ : ∃ f', f = f' + 3 := ⟨f - 3, by omega⟩
  obtain ⟨r1, r2⟩ := (reads_u8 (BitVec.ofNat 8 c)).unbounded.at (bs := [BitVec.ofNat 8 c]) (rest := [4#8] ++ ([0#8] ++ rest)) j2
  obtain ⟨r3, r4⟩ := (reads_u8 4#8).unbounded.at r2
  obtain ⟨r5, _⟩ := (reads_u8 0#8).unbounded.at r4
  refine ⟨s', ?_⟩
  have e : ∀ fuel, op5 q fuel u m.width sec off s' = .ok ((.other, off + [BitVec.ofNat 8 c].length), s') := by
    intro fuel
    unfold op5
    rw [r1, Res.bind_ok]
    have hc1 : (BitVec.ofNat 8 c).toNat = c := by rw [BitVec.toNat_ofNat]; omega
    simp only [hc1]
    split <;> first | rfl | omega
  rw [j3, patient_all hv, loop5, e]
  simp only [andThen]
  rw [loop5]
  unfold op5
  rw [r3, Res.bind_ok]
  simp only [show (4#8).toNat = 4 from rfl, andThen]
  rw [show Event.endFile = MacroEvent.call .leave from rfl, tell_spec, if_pos (patient_one hv _ _), loop5]
  unfold op5
  rw [r5, Res.bind_ok]
  rfl

include hob hc hx hu hsec hw hn hm ht hpre in
/-- In a list with wide offsets of a unit that has narrow ones, half of the position of a text is read, and the other half, which is zero, as the end of the list: what is behind is lost. -/
theorem C82_not_width (hwide : m.wide = true) (hnarrow : x.fmt64 = false) (h3 : 3 ≤ x.version) {l p : Nat} (hl : l < 2 ^ 31) (hp : p < 2 ^ 32) {str : List Byte} (hstr : StringAt q.obj.d.str p str) {rest : List Byte}
    (hd : sec.drop n = m.header ++ ((pre.map (MacroItem.encode m.width)).flatten ++ ((MacroItem.defineAt l p).encode m.width ++ rest))) :
    ∃ k, ∀ fuel, k ≤ fuel → ∃ mac s, getMacros q fuel u cl.st = .ok (some mac, s) ∧ ∀ v, Patient v → ∃ s', visit q fuel u mac v s = ⟨(es ++ [MacroEvent.define l str]).map MacroEvent.call, some (.ok (true, s'))⟩ := by
  obtain ⟨k, hk⟩ := visit_some hob hc hx hu hsec hw hn hm ht hpre hd
  refine ⟨k, fun fuel hf => ?_⟩
  obtain ⟨mac, s, g1, g2⟩ := hk fuel hf
  refine ⟨mac, s, g1, fun v hv => ?_⟩
  obtain ⟨s', f, off, j1, j2, j3⟩ := g2 v (by rw [patient_all hv])
  obtain ⟨f, rfl⟩ : ∃ f', f = f' + 2 := ⟨f - 2, by omega⟩
  have hb : (MacroItem.defineAt l p).encode m.width = [5#8] ++ (encodeU l ++ (leBytes 4 p ++ (0#8 :: [0#8, 0#8, 0#8]))) := by
    have h8 : leBytes 8 p = leBytes 4 p ++ (0#8 :: [0#8, 0#8, 0#8]) := by
      have z : ∀ a, p / a < 2 ^ 32 := fun a => Nat.lt_of_le_of_lt (Nat.div_le_self _ _) hp
      have e : p / 256 / 256 / 256 / 256 = 0 := by omega
      simp only [leBytes, List.cons_append, List.nil_append, e, Nat.zero_div, Nat.zero_mod]
    simp only [MacroItem.encode, MacroList.width, hwide, if_true, h8]
    rfl
  rw [hb] at j2
  simp only [List.append_assoc] at j2
  obtain ⟨hgn, rest', hstr⟩ := hstr
  obtain ⟨r1, r2⟩ := (reads_u8 5#8).unbounded.at j2
  obtain ⟨r3, r4⟩ := (reads_uleb hw l (by omega)).unbounded.at r2
  obtain ⟨r5, r6⟩ := (reads_uint 4 p (by decide) (by omega)).unbounded.at r4
  obtain ⟨r7, _⟩ := (reads_u8 0#8).unbounded.at (bs := [0#8]) (rest := [0#8, 0#8, 0#8] ++ rest) r6
  have hlen : u.dwarfLen = 4 := by rw [unit_len hob.ok hx hu h3, hnarrow]; rfl
  refine ⟨s', ?_⟩
  rw [j3, patient_all hv, loop5]
  unfold op5
  rw [r1, Res.bind_ok]
  simp only [show (5#8).toNat = 5 from rfl]
  unfold lineStrp
  rw [r3, Res.bind_ok]
  simp only
  rw [hlen, r5, Res.bind_ok]
  simp only
  rw [word64 p (by omega), memString_prefix q.obj.d.str str rest' p hgn hstr, Res.bind_ok]
  simp only [Res.bind_ok, andThen, setWidth_line]
  rw [show Event.define (BitVec.ofNat 32 l) str = MacroEvent.call (.define l str) from rfl, tell_spec, if_pos (patient_one hv _ _), loop5]
  unfold op5
  rw [r7, Res.bind_ok]
  rfl

end

include hob hc hx hu hsec hw hn in
/-- The offset of the line table is kept in an `int`: from 2^31 on it is not found. -/
theorem C82_not_offset {m : MacroList} (hm : m.WF) {o : Nat} (ho : m.lines = some o) (h1 : 2 ^ 31 ≤ o) (h2 : o < 2 ^ 32 - 1) {lsec : List Byte} (hl : q.obj.line = some lsec) (hls : lsec.length ≤ 2 ^ 63)
    {rest : List Byte} (hd : sec.drop n = m.header ++ rest) {fuel : Nat} (hf : 1 ≤ fuel) :
    ∃ mac s, getMacros q fuel u cl.st = .ok (some mac, s) ∧ ∀ v, visit q fuel u mac v s = ⟨[], some .exc⟩ := by
  obtain ⟨s, g1, g2⟩ := getMacros5 hob.ok hx hu hsec hw hn hm hd (igood_history hob.ok hob.refs hc).st hf
  refine ⟨_, s, g1, fun v => ?_⟩
  have e0 : MacroList.lineOff m = BitVec.ofNat 32 o := by unfold MacroList.lineOff; rw [ho]
  have e1 : BitVec.ofNat 32 o ≠ BitVec.allOnes 32 := by
    intro h
    have := congrArg BitVec.toNat h
    rw [BitVec.toNat_ofNat, BitVec.toNat_allOnes] at this
    omega
  have e2 : 2 ^ 63 ≤ ((BitVec.ofNat 32 o).signExtend 64).toNat := by
    have hm : ((BitVec.ofNat 32 o).signExtend 64).msb = true := by
      rw [BitVec.msb_signExtend]
      simp [BitVec.msb_eq_decide]; omega
    rw [BitVec.msb_eq_decide] at hm
    simpa using hm
  unfold visit visit5
  rw [if_pos (Nat.le_refl 5)]
  have e3 : lines5 q u ⟨5, m.width, MacroList.lineOff m, MacroList.table m, some (sec, n + m.header.length)⟩ = .exc := by
    unfold lines5
    simp only [e0]
    rw [if_pos e1]
    unfold linesAt
    rw [hl]
    generalize ((BitVec.ofNat 32 o).signExtend 64).toNat = a at e2
    simp only
    have e4 : getu32 lsec a = .exc := by
      unfold getu32
      show Res.bind _ _ = _
      unfold getBytes
      rw [if_neg (by decide), if_neg (by omega)]
      rfl
    have e5 : getlength lsec a = .exc := by
      unfold getlength
      show Res.bind _ _ = _
      rw [e4]; rfl
    have e6 : ∀ env, lineHeader lsec env a = .exc := by
      intro env
      unfold lineHeader
      show Res.bind (getlength lsec a) _ = _
      rw [e5]; rfl
    unfold build
    rw [e6]; rfl
  unfold start5
  rw [e3]
  rfl

include hob hc hx hu hsec hw hn in
/-- A list that imports itself is visited without end. -/
theorem C82_not_circle {m : MacroList} (hm : m.WF) (hno : m.lines = none) (hs : n < 256 ^ m.width) {rest : List Byte} (hd : sec.drop n = m.header ++ ((MacroItem.imports n).encode m.width ++ rest)) {fuel : Nat} (hf : 1 ≤ fuel) :
    ∃ mac s, getMacros q fuel u cl.st = .ok (some mac, s) ∧ ∀ fuel' v, visit q fuel' u mac v s = ⟨[], none⟩ := by
  have ht : MacroLines Supported q.obj.d q.obj.line x m.lines none := by rw [hno]; rfl
  obtain ⟨s, g1, g2⟩ := getMacros5 hob.ok hx hu hsec hw hn hm hd (igood_history hob.ok hob.refs hc).st hf
  obtain ⟨k1, _⟩ := lines5_spec hob.ok hob.line hx hu (m := ⟨5, m.width, MacroList.lineOff m, MacroList.table m, some (sec, n + m.header.length)⟩) rfl ht
  obtain ⟨r1, r2⟩ := (reads_u8 7#8).unbounded.at (bs := [7#8]) (rest := leBytes m.width n ++ rest) (drop_prefix hd)
  obtain ⟨r3, _⟩ := (reads_uint m.width n (by unfold MacroList.width; split <;> decide) hs).unbounded.at r2
  have hn64 : n < 2 ^ 64 := Nat.lt_of_lt_of_le hs (by unfold MacroList.width; exact pow_width m.wide)
  obtain ⟨k3, _⟩ := nest5_spec hob.ok hob.line hx hu hsec hw hn64 hm hd ht
  have loop : ∀ fuel v, loop5 q u v fuel none m.width sec (n + m.header.length) [] s = ⟨[], none⟩ := by
    intro fuel v
    induction fuel with
    | zero => rfl
    | succ fuel ih =>
      rw [loop5]
      unfold op5
      rw [r1, Res.bind_ok]
      simp only [show (7#8).toNat = 7 from rfl]
      rw [r3, Res.bind_ok]
      simp only [andThen]
      rw [k3]
      simp only [Option.map_none]
      rw [ih]
  refine ⟨_, s, g1, fun fuel' v => ?_⟩
  unfold visit visit5
  rw [if_pos (Nat.le_refl 5)]
  unfold start5
  rw [k1, Res.bind_ok]
  exact loop fuel' v

end

include hob hc hx hu in
/-- A unit whose root refers to no list has no macros. -/
theorem C82_none (h : RootHasNo x 0x2119 ∧ RootHasNo x 0x79 ∧ RootHasNo x 0x43) {fuel : Nat} (hf : 1 ≤ fuel) : ∃ s, getMacros q fuel u cl.st = .ok (none, s) := by
  obtain ⟨s, g1, _⟩ := getMacros_none hob.ok hx hu h (igood_history hob.ok hob.refs hc).st hf
  exact ⟨s, g1⟩

/-! ### .debug_macinfo -/

section
variable {isec : List Byte} (hsec : q.macinfo = some isec) (hw : isec.length < W64) {n : Nat} (hn : MacinfoAt x n) {t : Option LineTables} (ht : UnitFiles Supported q.obj.d q.obj.line x t)
  {is : List MacinfoItem} {es : List MacroEvent} (h : MacinfoSays t is es)

include hob hc hx hu hsec hw hn ht h in
/-- Some entries are visited. -/
theorem macinfo_some {tail : List Byte} (hd : isec.drop n = (is.map MacinfoItem.encode).flatten ++ tail) {fuel : Nat} (hf : is.length + 2 ≤ fuel) :
    ∃ mac s, getMacros q fuel u cl.st = .ok (some mac, s) ∧ ∃ s' off f, 2 + f = fuel - is.length ∧ isec.drop off = tail ∧ ∀ v, visit q fuel u mac v s =
      if (tellAll (unheeded v) [] es).2 then loop4 v (t.map tablesOf) isec s' (f + 2) off (calls (tellAll (unheeded v) [] es).1) else ⟨calls (tellAll (unheeded v) [] es).1, some (.ok (false, s'))⟩ := by
  obtain ⟨s, g1, g2⟩ := getMacros4 hob.ok hx hu hn (igood_history hob.ok hob.refs hc).st (fuel := fuel) (by omega)
  obtain ⟨⟨s', k1, k2⟩, k3⟩ := unitFiles_spec hob.ok hob.line hx hu ht g2.1 (fuel := fuel) (by omega)
  refine ⟨_, s, g1, s', _, fuel - is.length - 2, by omega, drop_prefix hd, fun v => ?_⟩
  have := macinfo_visited hw k3 h s' v (fuel - is.length) [] n tail hd
  rw [show fuel - is.length + is.length = fuel by omega] at this
  unfold visit visit4
  rw [if_neg (fun h => absurd h (by decide : ¬ (5 ≤ 4))), k1]
  simp only [andThen, hsec, Option.map_some]
  rw [show fuel - is.length - 2 + 2 = fuel - is.length by omega]
  exact this

include hob hc hx hu hsec hw hn ht h in
/-- What is done, for any visitor: refusals of definitions are not heeded. -/
theorem macinfo_told {rest : List Byte} (hd : isec.drop n = macinfoBytes is ++ rest) {fuel : Nat} (hf : is.length + 2 ≤ fuel) :
    ∃ mac s, getMacros q fuel u cl.st = .ok (some mac, s) ∧
      ∃ s', ∀ v, visit q fuel u mac v s = ⟨((tellAll (unheeded v) [] es).1).map MacroEvent.call, some (.ok ((tellAll (unheeded v) [] es).2, s'))⟩ := by
  unfold macinfoBytes at hd
  rw [List.append_assoc] at hd
  obtain ⟨mac, s, g1, s', off, f, _, j2, j3⟩ := macinfo_some hob hc hx hu hsec hw hn ht h hd hf
  refine ⟨mac, s, g1, s', fun v => ?_⟩
  rw [j3 v]
  obtain ⟨r1, _⟩ := (reads_u8 0#8).unbounded.at j2
  split
  · rename_i hv
    rw [hv, loop4]
    unfold op4
    show andThen _ (Res.bind _ _) _ = _
    rw [r1]
    rfl
  · rename_i hv
    rw [Bool.eq_false_iff.2 hv]

/-- A visitor that never says to stop at a definition. -/
def Heard (v : Visitor) : Prop := ∀ told l s, v told (.define l s) = true ∧ v told (.undef l s) = true

omit hob hc hx hu hsec hw hn ht h in
theorem heard_eq {v : Visitor} (h : Heard v) : unheeded v = listener v := by
  funext told e
  unfold unheeded
  cases e with
  | define l s => rw [show isText (.define l s) = true from rfl]; exact ((h _ _ _).1).symm
  | undef l s => rw [show isText (.undef l s) = true from rfl]; exact ((h _ _ _).2).symm
  | enter l dir f => rfl
  | leave => rfl

include hob hc hx hu hsec hw hn ht h in
/-- C83. For a unit with an older list, in .debug_macinfo, files are those of its line table; whoever visits the list is told of each definition and of each file that is entered or left, in this order, with line, text,
directory and file, until they say to stop at a file; and the result is whether they did not.
Missing: visitors that say to stop at a definition (`C83_not_stop`); lists with entries of vendors (`C83_not_vendor`); and what C27 misses. -/
theorem C83_visit_partial {rest : List Byte} (hd : isec.drop n = macinfoBytes is ++ rest) {fuel : Nat} (hf : is.length + 2 ≤ fuel) :
    ∃ mac s, getMacros q fuel u cl.st = .ok (some mac, s) ∧
      ∃ s', ∀ v, Heard v → visit q fuel u mac v s = ⟨((tellAll (listener v) [] es).1).map MacroEvent.call, some (.ok ((tellAll (listener v) [] es).2, s'))⟩ := by
  obtain ⟨mac, s, g1, s', g2⟩ := macinfo_told hob hc hx hu hsec hw hn ht h hd hf
  refine ⟨mac, s, g1, s', fun v hv => ?_⟩
  rw [g2 v, heard_eq hv]

include hob hc hx hu hsec hw hn ht h in
/-- A visitor that says to stop at definitions, and at nothing else, is not heeded: it is told of everything, and the result is that it did not say so. -/
theorem C83_not_stop {rest : List Byte} (hd : isec.drop n = macinfoBytes is ++ rest) {fuel : Nat} (hf : is.length + 2 ≤ fuel) :
    ∃ mac s, getMacros q fuel u cl.st = .ok (some mac, s) ∧
      ∃ s', ∀ v, (∀ told l dir f, v told (.startFile l dir f) = true) → (∀ told, v told .endFile = true) → visit q fuel u mac v s = ⟨es.map MacroEvent.call, some (.ok (true, s'))⟩ := by
  obtain ⟨mac, s, g1, s', g2⟩ := macinfo_told hob hc hx hu hsec hw hn ht h hd hf
  refine ⟨mac, s, g1, s', fun v h1 h2 => ?_⟩
  have hall : ∀ (es T : List MacroEvent), tellAll (unheeded v) T es = (T ++ es, true) := by
    intro es
    induction es with
    | nil => intro T; simp [tellAll]
    | cons e es ih =>
      intro T
      rw [tellAll, if_pos, ih]
      · simp
      · unfold unheeded
        cases e with
        | define l s => rfl
        | undef l s => rfl
        | enter l dir f => exact h1 _ _ _ _
        | leave => exact h2 _
  rw [g2 v, hall]
  rfl

include hob hc hx hu hsec hw hn ht h in
/-- Number and text of a vendor's entry are not skipped: number 4 without text is read as a file that is left, and the end of the list. -/
theorem C83_not_vendor {rest : List Byte} (hd : isec.drop n = (is.map MacinfoItem.encode).flatten ++ ((MacinfoItem.vendor 4 []).encode ++ rest)) {fuel : Nat} (hf : is.length + 4 ≤ fuel) :
    ∃ mac s, getMacros q fuel u cl.st = .ok (some mac, s) ∧ ∃ s', ∀ v, Patient v → visit q fuel u mac v s = ⟨(es ++ [MacroEvent.leave]).map MacroEvent.call, some (.ok (true, s'))⟩ := by
  obtain ⟨mac, s, g1, s', off, f, j1, j2, j3⟩ := macinfo_some hob hc hx hu hsec hw hn ht h hd (fuel := fuel) (by omega)
  refine ⟨mac, s, g1, s', fun v hv => ?_⟩
  obtain ⟨f, rfl⟩ : ∃ f', f = f' + 1 := ⟨f - 1, by omega⟩
  have e0 : (MacinfoItem.vendor 4 []).encode = [0xff#8] ++ ([4#8] ++ [0#8]) := by
    simp only [MacinfoItem.encode]
    rw [encodeU_small 4 (by decide)]
    rfl
  rw [e0] at j2
  simp only [List.append_assoc] at j2
  obtain ⟨r1, r2⟩ := (reads_u8 0xff#8).unbounded.at j2
  obtain ⟨r3, r4⟩ := (reads_u8 4#8).unbounded.at r2
  obtain ⟨r5, _⟩ := (reads_u8 0#8).unbounded.at r4
  rw [j3 v, heard_eq (fun told l s => ⟨hv _ _, hv _ _⟩), patient_all hv, if_pos rfl, loop4]
  have e1 : op4 isec off = .ok (.other, off + 1) := by
    unfold op4
    show Res.bind _ _ = _
    rw [r1]; rfl
  have e2 : op4 isec (off + 1) = .ok (.endFile, off + 1 + 1) := by
    unfold op4
    show Res.bind _ _ = _
    have r3 : unbounded (getu8 isec) (off + 1) = _ := r3
    rw [r3]; rfl
  have e3 : op4 isec (off + 1 + 1) = .ok (.eol, off + 1 + 1 + 1) := by
    unfold op4
    show Res.bind _ _ = _
    have r5 : unbounded (getu8 isec) (off + 1 + 1) = _ := r5
    rw [r5]; rfl
  rw [e1]
  simp only [andThen]
  rw [loop4, e2]
  simp only [andThen]
  rw [show Event.endFile = MacroEvent.call .leave from rfl, tell_spec, if_pos (patient_one hv _ _), loop4, e3]
  rfl

end

end

end Pstack.Props
