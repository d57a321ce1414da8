import Verif.Proof.ArgList
import Verif.Props.FindEntry
/-
Property theorems C78 and C79: the values of arguments and the list of arguments (Spec/Args.lean), after any history.
-/
namespace Pstack.Props
open Pstack.Reader Pstack.Spec Pstack.Dwarf Pstack.Die Pstack.Args

local notation "Mem" => Python.Mem

section
variable {d : Sections} {xs : List DieUnit} (hok : InfoOk d xs) (hfit : SectionsFit d) (hrefs : RefsOk xs) {cl : IClient} (hc : IHistory d xs cl)
include hok hfit hrefs hc

/-- C78. An object in memory, whose type is that of a `DIE` the program has, is shown as its type says: numbers, truth values, characters, addresses; pointers with what they point to, as far as
that goes; strings; of other types the name.
Missing: restrict and atomic types (`C78_not_restrict`), unsigned numbers of half the possible size and more (`C78_not_unsigned`), floating point numbers. -/
theorem C78_value_partial {y : DIE} (hy : cl.Holds d y) : ∃ p : EntryRef, IsEntry d xs y p.uo p.x p.o p.e ∧ ∀ (float : List Byte → List Byte) (mem : Mem) (q : EntryRef) (w : Nat) (bs t : List Byte) (addr : BitVec 64),
    Resolves knowsSome xs (some p) (some q) → SizeIs d xs q w → addr ≠ 0 → (isOpaque q.e.decl.tag ∨ StoredAt mem addr.toNat bs ∧ bs.length = w) → ObjectText knowsSome d xs mem q bs t →
    ∃ n, ∀ fuel rounds depth, n ≤ fuel → n ≤ rounds → n ≤ depth → ∃ s', valueText d fuel rounds mem float depth addr false (some y) cl.st = .ok (t, s') := by
  have hg := igood_history hok hrefs hc
  obtain ⟨uo, x, o, e, h⟩ := holds_good hok hg hy
  refine ⟨⟨uo, x, o, e⟩, h.isEntry, ?_⟩
  intro float mem q w bs t addr hr hsz h0 hst ho
  obtain ⟨n, hn⟩ := object_shown hok hfit ho float (some ⟨uo, x, o, e⟩) addr false hr h0 (by
    rcases hst with h | ⟨h, hl⟩
    · exact ⟨_, fetched_sized hok hfit mem hsz _, .inl h⟩
    · exact ⟨_, fetched_stored hok hfit hsz h hl, .inr rfl⟩)
  refine ⟨n, fun fuel rounds depth h1 h2 h3 => ?_⟩
  obtain ⟨s', k, _⟩ := hn fuel rounds depth h1 h2 h3 (some y) cl.st hg.st h
  exact ⟨s', k⟩

/-- C78. An object of 8 bytes in a register.
Missing: smaller ones (`C78_not_width`), and 0 (`C78_not_zero`). -/
theorem C78_register_partial {y : DIE} (hy : cl.Holds d y) : ∃ p : EntryRef, IsEntry d xs y p.uo p.x p.o p.e ∧ ∀ (float : List Byte → List Byte) (mem : Mem) (q : EntryRef) (t : List Byte) (v : BitVec 64),
    Resolves knowsSome xs (some p) (some q) → SizeIs d xs q 8 → v ≠ 0 → ObjectText knowsSome d xs mem q (leBytes 8 v.toNat) t →
    ∃ n, ∀ fuel rounds depth, n ≤ fuel → n ≤ rounds → n ≤ depth → ∃ s', valueText d fuel rounds mem float depth v true (some y) cl.st = .ok (t, s') := by
  have hg := igood_history hok hrefs hc
  obtain ⟨uo, x, o, e, h⟩ := holds_good hok hg hy
  refine ⟨⟨uo, x, o, e⟩, h.isEntry, ?_⟩
  intro float mem q t v hr _ h0 ho
  obtain ⟨n, hn⟩ := object_shown hok hfit ho float (some ⟨uo, x, o, e⟩) v true hr h0 ⟨_, fetched_value mem q v, .inr rfl⟩
  refine ⟨n, fun fuel rounds depth h1 h2 h3 => ?_⟩
  obtain ⟨s', k, _⟩ := hn fuel rounds depth h1 h2 h3 (some y) cl.st hg.st h
  exact ⟨s', k⟩

/-- C78 does not hold for unsigned numbers of half the possible size and more: they are shown as negative. -/
theorem C78_not_unsigned {y : DIE} (hy : cl.Holds d y) : ∃ p : EntryRef, IsEntry d xs y p.uo p.x p.o p.e ∧ ∀ (float : List Byte → List Byte) (mem : Mem) (q : EntryRef) (w v : Nat) (bs : List Byte) (addr : BitVec 64),
    Resolves knowsSome xs (some p) (some q) → q.e.decl.tag = 0x24 → NumberOf d xs q 0x3e 7 → SizeIs d xs q w → (w = 2 ∨ w = 4 ∨ w = 8) → addr ≠ 0 → StoredAt mem addr.toNat bs → NumBytes w v bs →
    2 ^ (8 * w - 1) ≤ v →
    ∃ n, ∀ fuel rounds depth, n ≤ fuel → n ≤ rounds → n < depth → ∃ s', valueText d fuel rounds mem float depth addr false (some y) cl.st = .ok (decimalText (v - 2 ^ (8 * w)), s') := by
  have hg := igood_history hok hrefs hc
  obtain ⟨uo, x, o, e, h⟩ := holds_good hok hg hy
  refine ⟨⟨uo, x, o, e⟩, h.isEntry, ?_⟩
  intro float mem q w v bs addr hr ht he hsz hw h0 hst hn hv
  obtain ⟨n1, rfl⟩ := hn
  have hib : IntBytes w ((v : Int) - 2 ^ (8 * w)) (leBytes w v) := by
    rcases hw with rfl | rfl | rfl <;> refine ⟨?_, ?_, ?_⟩ <;> simp only [Nat.reduceMul, Nat.reduceSub, Nat.reducePow, Int.reducePow] at hv n1 ⊢
    all_goals first | omega | (rw [if_neg (by omega)]; congr 1; omega)
  have hb : baseText float 7 (leBytes w v) = .ok (decimalText (v - 2 ^ (8 * w))) := base_shown (.signed hw hib) float
  obtain ⟨m, hm⟩ := value_base hok hfit hr (fetched_stored hok hfit hsz hst (leBytes_length _ _)) h0 ht he hb
  refine ⟨m, fun fuel rounds depth h1 h2 h3 => ?_⟩
  obtain ⟨k, rfl⟩ : ∃ k, depth = k + 1 := ⟨depth - 1, by omega⟩
  obtain ⟨s', k, _⟩ := hm fuel rounds h1 h2 k (some y) cl.st hg.st h
  exact ⟨s', k⟩

omit hfit in
/-- C78 does not hold for an object in a register that is 0: whatever its type, "(null)" is shown. -/
theorem C78_not_zero {y : DIE} (hy : cl.Holds d y) : ∃ p : EntryRef, IsEntry d xs y p.uo p.x p.o p.e ∧ ∀ (float : List Byte → List Byte) (mem : Mem) (q : EntryRef), Resolves knowsSome xs (some p) (some q) →
    ∃ n, ∀ fuel rounds depth, n ≤ fuel → n ≤ rounds → n < depth → ∃ s', valueText d fuel rounds mem float depth 0 true (some y) cl.st = .ok (asciiText "(null)", s') := by
  have hg := igood_history hok hrefs hc
  obtain ⟨uo, x, o, e, h⟩ := holds_good hok hg hy
  refine ⟨⟨uo, x, o, e⟩, h.isEntry, ?_⟩
  intro float mem q hr
  obtain ⟨m, hm⟩ := value_head hok hr (fetched_value (d := d) (xs := xs) mem q 0) float
  refine ⟨m, fun fuel rounds depth h1 h2 h3 => ?_⟩
  obtain ⟨k, rfl⟩ : ∃ k, depth = k + 1 := ⟨depth - 1, by omega⟩
  obtain ⟨z, s', k1, _, _⟩ := hm fuel rounds h1 h2 k (some y) cl.st hg.st h
  refine ⟨s', ?_⟩
  rw [k1]
  rfl

/-- C78 does not hold for numbers in registers that are larger than the number: all of the register is shown, whatever the size of the type. -/
theorem C78_not_width {y : DIE} (hy : cl.Holds d y) : ∃ p : EntryRef, IsEntry d xs y p.uo p.x p.o p.e ∧ ∀ (float : List Byte → List Byte) (mem : Mem) (q : EntryRef) (v : BitVec 64), Resolves knowsSome xs (some p) (some q) →
    q.e.decl.tag = 0x24 → NumberOf d xs q 0x3e 5 → v ≠ 0 →
    ∃ n, ∀ fuel rounds depth, n ≤ fuel → n ≤ rounds → n < depth → ∃ s', valueText d fuel rounds mem float depth v true (some y) cl.st = .ok (decimalText v.toInt, s') := by
  have hg := igood_history hok hrefs hc
  obtain ⟨uo, x, o, e, h⟩ := holds_good hok hg hy
  refine ⟨⟨uo, x, o, e⟩, h.isEntry, ?_⟩
  intro float mem q v hr ht he h0
  have hib : IntBytes 8 v.toInt (leBytes 8 v.toNat) := by
    have h1 := BitVec.toInt_eq_toNat_cond v
    have h2 := v.isLt
    refine ⟨?_, ?_, ?_⟩ <;> simp only [Nat.reduceMul, Nat.reduceSub, Int.reducePow]
    · split at h1 <;> omega
    · split at h1 <;> omega
    · congr 1
      split at h1 <;> split <;> omega
  have hb := base_shown (.signed (.inr (.inr rfl)) hib) float
  obtain ⟨m, hm⟩ := value_base hok hfit hr (fetched_value mem q v) h0 ht he hb
  refine ⟨m, fun fuel rounds depth h1 h2 h3 => ?_⟩
  obtain ⟨k, rfl⟩ : ∃ k, depth = k + 1 := ⟨depth - 1, by omega⟩
  obtain ⟨s', k, _⟩ := hm fuel rounds h1 h2 k (some y) cl.st hg.st h
  exact ⟨s', k⟩

/-- C78, where there is no memory: a number is shown as 0, as if it were known. -/
theorem C78_not_readable {y : DIE} (hy : cl.Holds d y) : ∃ p : EntryRef, IsEntry d xs y p.uo p.x p.o p.e ∧ ∀ (float : List Byte → List Byte) (mem : Mem) (q : EntryRef) (w : Nat) (addr : BitVec 64),
    Resolves knowsSome xs (some p) (some q) → q.e.decl.tag = 0x24 → NumberOf d xs q 0x3e 5 → SizeIs d xs q w → (w = 2 ∨ w = 4 ∨ w = 8) → addr ≠ 0 → mem addr.toNat = none →
    ∃ n, ∀ fuel rounds depth, n ≤ fuel → n ≤ rounds → n < depth → ∃ s', valueText d fuel rounds mem float depth addr false (some y) cl.st = .ok (asciiText "0", s') := by
  have hg := igood_history hok hrefs hc
  obtain ⟨uo, x, o, e, h⟩ := holds_good hok hg hy
  refine ⟨⟨uo, x, o, e⟩, h.isEntry, ?_⟩
  intro float mem q w addr hr ht he hsz hw h0 hno
  have hrd : readBuf mem addr.toNat w = List.replicate w 0#8 := by
    rcases hw with rfl | rfl | rfl <;> rw [readBuf, hno]
  have hib : IntBytes w 0 (List.replicate w 0#8) := by
    rcases hw with rfl | rfl | rfl <;> exact ⟨by decide, by decide, by decide⟩
  have hb := base_shown (.signed hw hib) float
  have hf := fetched_sized hok hfit mem hsz addr
  rw [hrd] at hf
  obtain ⟨m, hm⟩ := value_base hok hfit hr hf h0 ht he hb
  refine ⟨m, fun fuel rounds depth h1 h2 h3 => ?_⟩
  obtain ⟨k, rfl⟩ : ∃ k, depth = k + 1 := ⟨depth - 1, by omega⟩
  obtain ⟨s', k, _⟩ := hm fuel rounds h1 h2 k (some y) cl.st hg.st h
  exact ⟨s', k⟩

/-- C78 does not hold for restrict (0x37) and atomic (0x47) types: nothing is shown but the name, which they usually have not. -/
theorem C78_not_restrict {y : DIE} (hy : cl.Holds d y) : ∃ p : EntryRef, IsEntry d xs y p.uo p.x p.o p.e ∧ ∀ (float : List Byte → List Byte) (mem : Mem) (nm : List Byte) (w : Nat) (addr : BitVec 64),
    p.e.decl.tag = 0x37 ∨ p.e.decl.tag = 0x47 → SizeIs d xs p w → NamedAs d xs p nm → addr ≠ 0 →
    ∃ n, ∀ fuel rounds depth, n ≤ fuel → n ≤ rounds → n < depth →
      ∃ s', valueText d fuel rounds mem float depth addr false (some y) cl.st = .ok (asciiText "<unprintable type " ++ (nm ++ asciiText ">"), s') := by
  have hg := igood_history hok hrefs hc
  obtain ⟨uo, x, o, e, h⟩ := holds_good hok hg hy
  refine ⟨⟨uo, x, o, e⟩, h.isEntry, ?_⟩
  intro float mem nm w addr ht hsz hnm h0
  have hr : Resolves knowsSome xs (some ⟨uo, x, o, e⟩) (some ⟨uo, x, o, e⟩) := .plain h.entry (by
    rcases ht with ht | ht <;> simp only [knowsSome] <;> rw [ht] <;> rfl)
  obtain ⟨m, hm⟩ := value_other hok hfit hr (fetched_sized hok hfit mem hsz addr) h0 (by rcases ht with ht | ht <;> rw [ht] <;> exact ⟨by decide, rfl⟩) hnm float
  refine ⟨m, fun fuel rounds depth h1 h2 h3 => ?_⟩
  obtain ⟨k, rfl⟩ : ∃ k, depth = k + 1 := ⟨depth - 1, by omega⟩
  obtain ⟨s', k, _⟩ := hm fuel rounds h1 h2 k (some y) cl.st hg.st h
  exact ⟨s', k⟩

/-- C78 does not hold for floating point numbers (4) of other sizes than 4 and 8, such as `long double`: nothing is shown. -/
theorem C78_not_long_double {y : DIE} (hy : cl.Holds d y) : ∃ p : EntryRef, IsEntry d xs y p.uo p.x p.o p.e ∧ ∀ (float : List Byte → List Byte) (mem : Mem) (q : EntryRef) (w : Nat) (addr : BitVec 64),
    Resolves knowsSome xs (some p) (some q) → q.e.decl.tag = 0x24 → NumberOf d xs q 0x3e 4 → SizeIs d xs q w → w ≠ 0 → w ≠ 4 → w ≠ 8 → addr ≠ 0 →
    ∃ n, ∀ fuel rounds depth, n ≤ fuel → n ≤ rounds → n < depth → ∃ s', valueText d fuel rounds mem float depth addr false (some y) cl.st = .ok ([], s') := by
  have hg := igood_history hok hrefs hc
  obtain ⟨uo, x, o, e, h⟩ := holds_good hok hg hy
  refine ⟨⟨uo, x, o, e⟩, h.isEntry, ?_⟩
  intro float mem q w addr hr ht he hsz hw hw4 hw8 h0
  have hb : baseText float 4 (readBuf mem addr.toNat w) = .ok [] := by
    have hl := readBuf_length mem w addr.toNat
    unfold baseText
    rw [if_neg (fun hc => by rw [hc] at hl; simp at hl; omega)]
    simp only
    rw [hl, if_neg (by omega)]
  obtain ⟨m, hm⟩ := value_base hok hfit hr (fetched_sized hok hfit mem hsz addr) h0 ht he hb
  refine ⟨m, fun fuel rounds depth h1 h2 h3 => ?_⟩
  obtain ⟨k, rfl⟩ : ∃ k, depth = k + 1 := ⟨depth - 1, by omega⟩
  obtain ⟨s', k, _⟩ := hm fuel rounds h1 h2 k (some y) cl.st hg.st h
  exact ⟨s', k⟩

/-! ### The list of arguments -/

/-- C79. The arguments of a function in a frame: its parameters in the order they are declared, each with its name and the value the object has at the place its location gives for the
instruction of the frame, or its constant value, or, if nothing is known, without.
Missing: as in C78, C20 and C22; computed values (`C79_not_computed`); indexes of lists (`C79_not_index`); lists that have nothing for the instruction (`C79_not_absent`). -/
theorem C79_arguments_partial (hbase : BasesKnown d xs) {y : DIE} (hy : cl.Holds d y) : ∃ uo x o e, IsEntry d xs y uo x o e ∧ ∀ (c : Ctx) (f : FrameState) (F : Forest (Nat × DieEntry)) (ts : List (List Byte)),
    FrameIs c f → (x.placed uo).KidsOf (o, e) F → ArgTexts knowsSome d xs f (parameters uo x F) ts →
    ∃ m, ∀ fuel rounds depth, m ≤ fuel → m ≤ rounds → m ≤ depth → ∃ s', argsText d fuel rounds depth (F.tops.length + 1) c (some y) cl.st = .ok (argumentText ts, s') := by
  have hg := igood_history hok hrefs hc
  obtain ⟨uo, x, o, e, h⟩ := holds_good hok hg hy
  refine ⟨uo, x, o, e, h.isEntry, ?_⟩
  intro c f F ts hcf hF hts
  obtain ⟨m, hm⟩ := args_shown hok hfit hbase hcf hF hts hg.st h
  refine ⟨m, fun fuel rounds depth h1 h2 h3 => ?_⟩
  obtain ⟨s', k, _⟩ := hm fuel rounds depth (F.tops.length + 1) h1 h2 h3 (by omega)
  exact ⟨s', k⟩

/-- C79 does not hold for an argument whose list of locations has nothing for the instruction (its value is not known there): it is shown as "(null)". -/
theorem C79_not_absent {y : DIE} (hy : cl.Holds d y) : ∃ p : EntryRef, IsEntry d xs y p.uo p.x p.o p.e ∧ ∀ (c : Ctx) (f : FrameState) (nm : List Byte) (r q : EntryRef) (w base : Nat) (es : List LocEntry),
    FrameIs c f → NamedAs d xs p nm → TypeOf xs p (some r) → Resolves knowsSome xs (some r) (some q) → SizeIs d xs q w → LocListOf knowsSome d xs f p base es → locate f.pc base es = none →
    ∃ m, ∀ fuel rounds depth, m ≤ fuel → m ≤ rounds → m ≤ depth → ∃ s', argText d fuel rounds depth c y cl.st = .ok (nm ++ (asciiText "=" ++ asciiText "(null)"), s') := by
  have hg := igood_history hok hrefs hc
  obtain ⟨uo, x, o, e, h⟩ := holds_good hok hg hy
  refine ⟨⟨uo, x, o, e⟩, h.isEntry, ?_⟩
  intro c f nm r q w base es hcf hnm hty hr hsz hl hno
  obtain ⟨m, hm⟩ := located_shown hok hfit (c := c) hnm hty (location_none hok hfit hcf hl hno) (t := asciiText "(null)") (by
    obtain ⟨m, hm⟩ := value_head hok hr (fetched_sized hok hfit c.mem hsz 0) c.float
    refine ⟨m + 1, fun fuel rounds depth h1 h2 h3 y s hs hg => ?_⟩
    obtain ⟨k, rfl⟩ : ∃ k, depth = k + 1 := ⟨depth - 1, by omega⟩
    obtain ⟨z, s', k1, k2, _⟩ := hm fuel rounds (by omega) (by omega) k y s hs hg
    exact ⟨s', by rw [k1]; rfl, k2⟩)
  refine ⟨m, fun fuel rounds depth h1 h2 h3 => ?_⟩
  obtain ⟨s', k, _⟩ := hm fuel rounds depth h1 h2 h3 y cl.st hg.st h
  exact ⟨s', k⟩

/-- C79 does not hold for computed values (`DW_OP_stack_value`): what is shown is what is in memory at the address that is the value. -/
theorem C79_not_computed (hbase : BasesKnown d xs) {y : DIE} (hy : cl.Holds d y) : ∃ p : EntryRef, IsEntry d xs y p.uo p.x p.o p.e ∧ ∀ (c : Ctx) (f : FrameState) (nm : List Byte) (r q : EntryRef) (w : Nat)
    (ex : Spec.Expr) (v : BitVec 64) (bs t : List Byte),
    FrameIs c f → NamedAs d xs p nm → TypeOf xs p (some r) → Resolves knowsSome xs (some r) (some q) → SizeIs d xs q w → LocationCode knowsSome d xs f p (ex.encode ++ [0x9f#8]) → ex.WF → ex.Exact f.m →
    ex.value f.m = some v → v ≠ 0 → StoredAt f.mem v.toNat bs → bs.length = w → ObjectText knowsSome d xs f.mem q bs t →
    ∃ m, ∀ fuel rounds depth, m ≤ fuel → m ≤ rounds → m ≤ depth → ∃ s', argText d fuel rounds depth c y cl.st = .ok (nm ++ (asciiText "=" ++ t), s') := by
  have hg := igood_history hok hrefs hc
  obtain ⟨uo, x, o, e, h⟩ := holds_good hok hg hy
  refine ⟨⟨uo, x, o, e⟩, h.isEntry, ?_⟩
  intro c f nm r q w ex v bs t hcf hnm hty hr hsz hl hwf hex hv h0 hst hlen ho
  obtain ⟨m, hm⟩ := located_shown hok hfit (c := c) hnm hty (location_of hok hfit hbase hcf hl (fun sec off rest hw hd => stack_evaluated hcf hwf hex hv hw hd)) (t := t) (by
    rw [hcf.mem]
    exact object_shown hok hfit ho c.float (some r) v false hr h0 ⟨_, fetched_stored hok hfit hsz hst hlen, .inr rfl⟩)
  refine ⟨m, fun fuel rounds depth h1 h2 h3 => ?_⟩
  obtain ⟨s', k, _⟩ := hm fuel rounds depth h1 h2 h3 y cl.st hg.st h
  exact ⟨s', k⟩

/-- C79 does not hold for an argument whose location is the index of a list (0x22, DW_FORM_loclistx): the exception is not caught, and what was to follow is not shown. -/
theorem C79_not_index (hbase : BasesKnown d xs) {y : DIE} (hy : cl.Holds d y) : ∃ p : EntryRef, IsEntry d xs y p.uo p.x p.o p.e ∧ ∀ (c : Ctx) (nm : List Byte) (r : EntryRef) uo x o e i a,
    NamedAs d xs p nm → TypeOf xs p (some r) → Inherits xs 2 p.uo p.o p.e (some (uo, x, o, e, i)) → e.decl.attrs[i]? = some a → a.form = 0x22 →
    ∃ m, ∀ fuel rounds depth, m ≤ fuel → argText d fuel rounds depth c y cl.st = .exc := by
  have hg := igood_history hok hrefs hc
  obtain ⟨uo, x, o, e, h⟩ := holds_good hok hg hy
  refine ⟨⟨uo, x, o, e⟩, h.isEntry, ?_⟩
  intro c nm r uo' x' o' e' i a hnm hty hi ha hf
  obtain ⟨m1, h1⟩ := named_of hok hfit hnm
  obtain ⟨m2, h2⟩ := type_of hok hty
  obtain ⟨m3, h3⟩ := getAttr_inherits hok (d := d) (by decide) hi
  refine ⟨m1 + m2 + m3 + 1, fun fuel rounds depth hfu => ?_⟩
  obtain ⟨s1, a1, a2⟩ := h1 fuel (by omega) y cl.st hg.st h
  obtain ⟨z, s2, b1, b2, b3⟩ := h2 fuel (by omega) y s1 a2.1 (GoodDie.ext h a2.2)
  have k2 := a2.trans b2
  obtain ⟨a', s3, g1, g2, g3, z', rfl, g4, _⟩ := h3 fuel y x s2 (by omega) k2.1 (GoodDie.ext h k2.2)
  obtain ⟨base, hb⟩ := hbase uo' x' g4.entry.1
  obtain ⟨lw, s4, c1, _, c3⟩ := unitLow_spec hok hfit g2 g4.entry.1 g4.isOpen hb (fuel := fuel) (by omega)
  cases z with
  | none => exact b3.elim
  | some z =>
    unfold argText
    rw [a1, Res.bind_ok]
    simp only
    rw [b1, Res.bind_ok]
    simp only
    rw [g1, Res.bind_ok]
    simp only
    unfold evalAttr
    rw [c1, Res.bind_ok]
    simp only
    rw [form_of hok hfit c3.1 (GoodDie.ext g4 c3.2) ha, Res.bind_ok, hf]
    rfl

end

end Pstack.Props
