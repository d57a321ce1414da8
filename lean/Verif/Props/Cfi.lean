import Verif.Proof.Cfa
/-
Property theorems C09 - C14: call frame information.
-/
namespace Pstack.Props
open Pstack.Dwarf Pstack.Spec

/-! ### C09 -/

/-- C09. In a table sorted by start address whose ranges do not overlap, looking up an address returns the entry whose
range contains it, and reports none exactly when there is no such entry. -/
theorem C09_lookup (load : CIEs → Nat → CIEs × Res FDE) (fs : List FDE) (hd : Disjoint fs) (addr : Nat) :
    (∀ f, (findFDE load (eagerTable fs) addr).2 = .ok (some f) ↔ f ∈ fs ∧ Covers addr f) ∧
    ((findFDE load (eagerTable fs) addr).2 = .ok none ↔ ∀ f ∈ fs, ¬ Covers addr f) := by
  have h := findLoop_spec (listLoad_loads fs) hd addr _ (eagerTable fs) 0 (eagerTable fs).fdes.length rfl
    (eagerTable_agrees fs) (by simp [eagerTable]) (by intro i hi h; omega)
    (by intro i hi h; simp [eagerTable] at h; omega)
  rw [findFDE_eager load (listLoad fs)]
  unfold findFDE
  rw [h]
  refine ⟨fun f => ?_, ?_⟩
  · constructor
    · intro he
      simp only [Res.ok.injEq] at he
      exact ⟨List.mem_of_find?_eq_some he, by simpa using List.find?_some he⟩
    · intro ⟨hm, hc⟩
      obtain ⟨i, hi, rfl⟩ := List.mem_iff_getElem.1 hm
      rw [find?_eq_some_of hi hc]
      intro j hj hji hcj
      have := hd.2 j i hj hi hji
      have h1 := hcj.2
      have h2 := hc.1
      omega
  · constructor
    · intro he f hf hc
      simp only [Res.ok.injEq, List.find?_eq_none] at he
      exact he f hf (by simpa using hc)
    · intro hn
      simp only [Res.ok.injEq, List.find?_eq_none]
      intro f hf
      simpa using hn f hf

/-- C09. Whatever the table (overlapping, unsorted), an answer is an entry of it that covers the address. -/
theorem C09_sound (load : CIEs → Nat → CIEs × Res FDE) (fs : List FDE)
    (hw : ∀ f ∈ fs, f.iloc.toNat + f.irange.toNat < 2 ^ 64) (addr : Nat) (f : FDE)
    (h : (findFDE load (eagerTable fs) addr).2 = .ok (some f)) : f ∈ fs ∧ Covers addr f := by
  rw [findFDE_eager load (listLoad fs)] at h
  have := findLoop_sound (listLoad_loads fs) addr hw _ (eagerTable fs) 0 (eagerTable fs).fdes.length rfl
    (by simp [eagerTable]) (eagerTable_agrees fs) f h
  exact ⟨this.2, this.1⟩

/-- A small sample entry used in the non-vacuity checks. -/
def sampleCIE : CIE := ⟨0x1b#8, false, 1, -8, 16, 20, 24, [0x7a#8, 0x52#8], 0#8⟩

example : Disjoint [⟨0x1000, 0x10, 0, 0, sampleCIE, []⟩, ⟨0x1010, 0x20, 0, 0, sampleCIE, []⟩, ⟨0x2000, 1, 0, 0, sampleCIE, []⟩] := by
  refine ⟨by decide, ?_⟩
  intro i j hi hj hij
  simp only [List.length_cons, List.length_nil] at hi hj
  have : (i = 0 ∧ j = 1) ∨ (i = 0 ∧ j = 2) ∨ (i = 1 ∧ j = 2) := by omega
  rcases this with ⟨rfl, rfl⟩ | ⟨rfl, rfl⟩ | ⟨rfl, rfl⟩ <;> simp

/-! ### C11 -/

/-- C11. Walking a frame section made of any sequence of entries - possibly followed by a zero-length record and
anything after it - yields exactly the frame entries of the section, each with its own common entry, sorted by start
address. `WFEntries` lets a .debug_frame entry refer to a common entry before or after it. -/
theorem C11_walk (kind : FrameKind) (es : List Entry) (hwf : WFEntries kind es) (tail : List Byte) (sa : Nat)
    (hw : (frameSection kind es ++ tail).length < W64) (htail : tail = [] ∨ ∃ r, tail = leBytes 4 0 ++ r) :
    ∃ fs, eagerFDEs (frameSection kind es ++ tail) kind.type sa = .ok fs ∧ fs.Perm (fdesOf es sa) ∧
      fs.Pairwise (fun a b => a.iloc.toNat ≤ b.iloc.toNat) :=
  ⟨_, eagerFDEs_spec kind es hwf tail sa hw htail, sortFDEs_perm _, sortFDEs_sorted _⟩

/-- C11, the limit of what the property can claim: a frame entry that names itself as its common entry is chased without
end - at no recursion depth is a result reached. -/
theorem C11_cycle_diverges (sa : Nat) : ∀ fuel cies, cies = [] →
    putFDEorCIE (leBytes 4 4 ++ leBytes 4 0) .debugFrame sa fuel cies 0 = ([], .ub) := by
  intro fuel
  induction fuel with
  | zero => intro cies h; subst h; rfl
  | succ n ih =>
    intro cies h
    subst h
    have hh : decodeHdr (leBytes 4 4 ++ leBytes 4 0) .debugFrame 0 = .ok (some (8, some 0), 8) := by decide +kernel
    rw [putFDEorCIE, hh]
    simp [ih, W64]

-- non-vacuity: a .debug_frame with an FDE before its CIE and one after, and a .eh_frame section
example : WFEntries .debugFrame
    [.fde ⟨1, 0x1000, 0x20, [], [0#8]⟩, .cie ⟨4#8, 8#8, 0#8, 1, -8, 16#8, none, [0x0c#8, 7#8, 8#8]⟩, .fde ⟨1, 0x800, 0x10, [], []⟩] := by
  refine ⟨by decide +kernel, ?_, ?_⟩
  · intro c hc; simp at hc; subst hc; refine ⟨by decide, by decide, by decide, trivial⟩
  · intro i f hf
    have : i = 0 ∨ i = 1 ∨ i = 2 ∨ 3 ≤ i := by omega
    rcases this with rfl | rfl | rfl | h
    · simp at hf; subst hf; exact ⟨by decide +kernel, _, rfl, by simp [CieEnc.ptr, PtrFmt.Fits], by simp [CieEnc.ptr, PtrFmt.Fits]⟩
    · simp at hf
    · simp at hf; subst hf; exact ⟨by decide +kernel, _, rfl, by simp [CieEnc.ptr, PtrFmt.Fits], by simp [CieEnc.ptr, PtrFmt.Fits]⟩
    · rw [List.getElem?_eq_none (by simpa using h)] at hf; simp at hf

/-! ### C10 -/

/-- C10. Build a CFI from `.eh_frame_hdr` (any version, any encodings the decoder supports for a table that is not
relative to its own position) whose rows list the entries of the section: every sequence of lookups gets, answer by
answer, what the eagerly built CFI answers. -/
theorem C10_lazy_eq_eager (es : List Entry) (hwf : WFEntries .ehFrame es) (tail : List Byte) (sa hdrAddr : Nat)
    (hw : (frameSection .ehFrame es ++ tail).length < W64)
    (_htail : tail = [] ∨ ∃ r, tail = leBytes 4 0 ++ r)
    (fs : List FDE) (_hfs : eagerFDEs (frameSection .ehFrame es ++ tail) .ehFrame sa = .ok fs)
    (order : List Nat) (hord : order.map (fdeMeaning es sa) = fs.map some)
    (h : HdrEnc) (hh : h.WF hdrAddr (rowsOf es sa order fs)) (pad : List Byte)
    (hl : (h.bytes hdrAddr (rowsOf es sa order fs) ++ pad).length < W64) :
    ∃ n tab off, openHdr (h.bytes hdrAddr (rowsOf es sa order fs) ++ pad) sa hdrAddr 0 = .ok (some (n, tab), off) ∧
      ∀ (addrs : List Nat) (load : CIEs → Nat → CIEs × Res FDE),
        (findFDEs (loadEntry (frameSection .ehFrame es ++ tail) sa tab) (lazyTable n) addrs).2 =
        (findFDEs load (eagerTable fs) addrs).2 := by
  obtain ⟨off, ho⟩ := openHdr_spec h sa hdrAddr (rowsOf es sa order fs) hh pad hl
  refine ⟨_, _, off, ho, ?_⟩
  intro addrs load
  have hlen : order.length = fs.length := by simpa using congrArg List.length hord
  have hn : (rowsOf es sa order fs).length = fs.length := by
    simp only [rowsOf, List.length_zipWith]; omega
  rw [hn, (findFDEs_eager load (listLoad fs) fs addrs).1]
  obtain ⟨w1, w2, w3, w4, w5⟩ := hh
  have htl : (tableBytes h.tabFmt (h.tabBase.value 0 hdrAddr hdrAddr) (rowsOf es sa order fs) ++ pad).length < W64 := by
    simp only [HdrEnc.bytes, List.length_append] at hl ⊢; omega
  have hload := loadEntry_spec es hwf tail sa hdrAddr hw fs order hord _ h.tabFmt h.tabBase w3 w4 htl w5 ⟨pad, rfl⟩
  exact findFDEs_indep hload (listLoad_loads fs) addrs _ _
    (lazyTable_agrees _ (by intro o c h; simp at h) fs) (eagerTable_agrees fs)

/-- C10. Once an entry has been decoded no later lookup changes it, and every decoded entry is the section's. -/
theorem C10_stable (es : List Entry) (hwf : WFEntries .ehFrame es) (tail : List Byte) (sa hdrAddr : Nat)
    (hw : (frameSection .ehFrame es ++ tail).length < W64)
    (fs : List FDE) (order : List Nat) (hord : order.map (fdeMeaning es sa) = fs.map some)
    (h : HdrEnc) (hh : h.WF hdrAddr (rowsOf es sa order fs)) (pad : List Byte)
    (hl : (h.bytes hdrAddr (rowsOf es sa order fs) ++ pad).length < W64) (n : Nat) (tab : HdrTable) (off : Nat)
    (ho : openHdr (h.bytes hdrAddr (rowsOf es sa order fs) ++ pad) sa hdrAddr 0 = .ok (some (n, tab), off))
    (before after : List Nat) (i : Nat) (f : FDE)
    (hdec : (findFDEs (loadEntry (frameSection .ehFrame es ++ tail) sa tab) (lazyTable n) before).1.fdes[i]? = some (some f)) :
    fs[i]? = some f ∧
    (findFDEs (loadEntry (frameSection .ehFrame es ++ tail) sa tab)
      (findFDEs (loadEntry (frameSection .ehFrame es ++ tail) sa tab) (lazyTable n) before).1 after).1.fdes[i]? =
      some (some f) := by
  obtain ⟨off', ho'⟩ := openHdr_spec h sa hdrAddr (rowsOf es sa order fs) hh pad hl
  rw [ho'] at ho
  simp only [Res.ok.injEq, Prod.mk.injEq, Option.some.injEq] at ho
  obtain ⟨⟨rfl, rfl⟩, -⟩ := ho
  have hlen : order.length = fs.length := by simpa using congrArg List.length hord
  have hn : (rowsOf es sa order fs).length = fs.length := by
    simp only [rowsOf, List.length_zipWith]; omega
  rw [hn] at hdec ⊢
  obtain ⟨w1, w2, w3, w4, w5⟩ := hh
  have htl : (tableBytes h.tabFmt (h.tabBase.value 0 hdrAddr hdrAddr) (rowsOf es sa order fs) ++ pad).length < W64 := by
    simp only [HdrEnc.bytes, List.length_append] at hl ⊢; omega
  have hload := loadEntry_spec es hwf tail sa hdrAddr hw fs order hord _ h.tabFmt h.tabBase w3 w4 htl w5 ⟨pad, rfl⟩
  have a1 := findFDEs_agrees hload before _ (lazyTable_agrees _ (by intro o c h; simp at h) fs)
  exact ⟨a1.1.loaded i f hdec, (findFDEs_agrees hload after _ a1.1).2 i f hdec⟩

/-- C10. Asking for all entries, after any lookups, gives exactly the section's entries in table order. -/
theorem C10_getFDEs (es : List Entry) (hwf : WFEntries .ehFrame es) (tail : List Byte) (sa hdrAddr : Nat)
    (hw : (frameSection .ehFrame es ++ tail).length < W64)
    (fs : List FDE) (order : List Nat) (hord : order.map (fdeMeaning es sa) = fs.map some)
    (h : HdrEnc) (hh : h.WF hdrAddr (rowsOf es sa order fs)) (pad : List Byte)
    (hl : (h.bytes hdrAddr (rowsOf es sa order fs) ++ pad).length < W64) (n : Nat) (tab : HdrTable) (off : Nat)
    (ho : openHdr (h.bytes hdrAddr (rowsOf es sa order fs) ++ pad) sa hdrAddr 0 = .ok (some (n, tab), off))
    (before : List Nat) :
    let r := ensureFDEs (loadEntry (frameSection .ehFrame es ++ tail) sa tab)
      (findFDEs (loadEntry (frameSection .ehFrame es ++ tail) sa tab) (lazyTable n) before).1 0 n
    r.2 = .ok () ∧ r.1.fdes = fs.map some := by
  obtain ⟨off', ho'⟩ := openHdr_spec h sa hdrAddr (rowsOf es sa order fs) hh pad hl
  rw [ho'] at ho
  simp only [Res.ok.injEq, Prod.mk.injEq, Option.some.injEq] at ho
  obtain ⟨⟨rfl, rfl⟩, -⟩ := ho
  have hlen : order.length = fs.length := by simpa using congrArg List.length hord
  have hn : (rowsOf es sa order fs).length = fs.length := by
    simp only [rowsOf, List.length_zipWith]; omega
  rw [hn]
  obtain ⟨w1, w2, w3, w4, w5⟩ := hh
  have htl : (tableBytes h.tabFmt (h.tabBase.value 0 hdrAddr hdrAddr) (rowsOf es sa order fs) ++ pad).length < W64 := by
    simp only [HdrEnc.bytes, List.length_append] at hl ⊢; omega
  have hload := loadEntry_spec es hwf tail sa hdrAddr hw fs order hord _ h.tabFmt h.tabBase w3 w4 htl w5 ⟨pad, rfl⟩
  have a1 := findFDEs_agrees hload before _ (lazyTable_agrees _ (by intro o c h; simp at h) fs)
  exact ensureFDEs_spec hload fs.length 0 _ a1.1 (by omega) (by intro j hj h; omega)

/-! ### C12 -/

/-- C12. For every value format and every base, decoding the bytes a writer emits for the distance of a target address
from its base gives back the target modulo 2^64, moves past exactly those bytes, and reports the indirect flag. -/
theorem C12_decode_partial (d rest : List Byte) (off sectionAddr sectionVa target : Nat) (f : PtrFmt) (b : PtrBase) (ind : Bool)
    (hw : d.length < W64)
    (hfit : f.Fits ((target : Int) - b.value (off + sectionAddr) sectionVa sectionVa))
    (h : d.drop off = f.encode ((target : Int) - b.value (off + sectionAddr) sectionVa sectionVa) ++ rest) :
    ∃ v, decodeAddress d sectionAddr (ptrEnc f b ind) sectionVa off =
      .ok ((v, ind), off + (f.encode ((target : Int) - b.value (off + sectionAddr) sectionVa sectionVa)).length) ∧
      v.toNat = target % 2 ^ 64 := by
  refine ⟨_, decodeAddress_spec d rest off sectionAddr sectionVa f b ind _ hfit hw h, ?_⟩
  rw [ofInt_sub_base, BitVec.toNat_ofNat]

example : PtrFmt.sdata4.Fits ((0x1000 : Int) - PtrBase.pcrel.value (8 + 0x2000) 0 0) := by simp [PtrFmt.Fits, PtrBase.value]

/-- C12, where the property fails: `DW_EH_PE_absptr` (encoding 0) is a whole 8-byte address, but 4 bytes are read and
sign-extended, so an 8-byte address above 2^31 comes back wrong and the cursor is left inside it. -/
theorem C12_absptr_wrong :
    decodeAddress (leBytes 8 0x555555554000) 0 0x00#8 0 0 = .ok ((0x55554000#64, false), 4) ∧
    decodeAddress (leBytes 8 0x00000000f0000000) 0 0x00#8 0 0 = .ok ((0xfffffffff0000000#64, false), 4) := by
  constructor <;> decide +kernel

/-! ### C13 -/

/-- C13. For a frame entry whose common entry's instructions encode `ci` and whose own instructions encode `fi`, asking
for the rules at an address gives exactly the row for that address in the table the program denotes. -/
theorem C13_row_partial (d rest1 rest2 : List Byte) (hw : d.length < W64) (f : FDE) (ci fi : List Insn)
    (hci : ∀ i ∈ ci, i.WF) (hfi : ∀ i ∈ fi, i.WF)
    (hc1 : d.drop f.cie.instructions = encodeInsns ci ++ rest1)
    (hc2 : f.cie.endOff = f.cie.instructions + (encodeInsns ci).length)
    (hf1 : d.drop f.instructions = encodeInsns fi ++ rest2)
    (hf2 : f.endOff = f.instructions + (encodeInsns fi).length)
    (hnz : f.instructions ≤ d.length ∧ f.cie.instructions ≤ d.length)
    (ini : Row) (hini : finalRow ⟨f.cie.codeAlign.toNat, f.cie.dataAlign.toInt⟩ Row.init ⟨0, Row.init, []⟩ ci = some ini)
    (t : List (Nat × Row))
    (ht : rows ⟨f.cie.codeAlign.toNat, f.cie.dataAlign.toInt⟩ ini ⟨f.iloc.toNat, ini, []⟩ fi = some t)
    (addr : BitVec 64) (haddr : f.iloc.toNat ≤ addr.toNat) :
    ∃ frame row, f.execInsns d addr = .ok frame ∧ rowAt t addr.toNat = some row ∧ Holds d frame row := by
  have l1 : ci.length < d.length + 1 := by
    have := encodeInsns_length ci
    have := congrArg List.length hc1
    simp at this; omega
  have l2 : fi.length < d.length + 1 := by
    have := encodeInsns_length fi
    have := congrArg List.length hf1
    simp at this; omega
  obtain ⟨df, g1, g2⟩ := execLoop_final d hw f.cie ⟨f.cie.codeAlign.toNat, f.cie.dataAlign.toInt⟩ rfl rfl CallFrame.init
    Row.init (holds_init d) rest1 ci (d.length + 1) f.cie.instructions ⟨0#64, CallFrame.init, []⟩ ⟨0, Row.init, []⟩ ini
    ⟨rfl, holds_init d, trivial⟩ hci l1 hc1 hini
  obtain ⟨frame, row, r1, r2, r3⟩ := execLoop_rows d hw f.cie ⟨f.cie.codeAlign.toNat, f.cie.dataAlign.toInt⟩ rfl rfl df
    ini g2 addr rest2 fi (d.length + 1) f.instructions ⟨f.iloc, df, []⟩ ⟨f.iloc.toNat, ini, []⟩ t ⟨rfl, g2, trivial⟩ hfi
    haddr l2 hf1 ht
  refine ⟨frame, row, ?_, r2, r3⟩
  unfold FDE.execInsns FDE.defaultFrame Dwarf.execInsns
  rw [hc2, g1, Res.bind_ok, hf2]
  exact r1

/-- C13, end to end: the same for the entry decoded from record `i` of any frame section. -/
theorem C13_section_partial (kind : FrameKind) (es : List Entry) (tail : List Byte) (sa : Nat)
    (hw : (frameSection kind es ++ tail).length < W64) (i : Nat) (fe : FdeEnc) (ce : CieEnc) (hce : ce.WF)
    (hi : es[i]? = some (.fde fe)) (hc : cieAt es fe.cie = some ce) (ci fi : List Insn)
    (hci : ∀ i ∈ ci, i.WF) (hfi : ∀ i ∈ fi, i.WF)
    (hcb : ce.insns = encodeInsns ci) (hfb : fe.insns = encodeInsns fi)
    (fde : FDE) (hfde : fdeMeaning es sa i = some fde)
    (ini : Row) (hini : finalRow ⟨ce.codeAlign, ce.dataAlign⟩ Row.init ⟨0, Row.init, []⟩ ci = some ini)
    (t : List (Nat × Row)) (ht : rows ⟨ce.codeAlign, ce.dataAlign⟩ ini ⟨fde.iloc.toNat, ini, []⟩ fi = some t)
    (addr : BitVec 64) (haddr : fde.iloc.toNat ≤ addr.toNat) :
    ∃ frame row, fde.execInsns (frameSection kind es ++ tail) addr = .ok frame ∧ rowAt t addr.toNat = some row ∧
      Holds (frameSection kind es ++ tail) frame row := by
  obtain ⟨hlt, he⟩ := List.getElem?_eq_some_iff.1 hi
  obtain ⟨hclt, hcee⟩ := cieAt_lt hc
  simp only [fdeMeaning, hi, hc, Option.map_some, Option.some.injEq] at hfde
  have hd1 := section_drop kind es tail i hlt
  have hd2 := section_drop kind es tail fe.cie hclt
  rw [he] at hd1
  rw [hcee] at hd2
  generalize frameSection kind es ++ tail = d at *
  have hbody : (Entry.fde fe).body es = fe.bytes ce := by simp only [Entry.body, hc]
  simp only [Entry.record, hbody, FdeEnc.bytes, hfb, List.append_assoc] at hd1
  simp only [Entry.record, Entry.body, CieEnc.bytes, hcb, List.append_assoc] at hd2
  have a1 := drop_prefix (drop_prefix (drop_prefix hd1))
  have a2 := drop_prefix (drop_prefix (drop_prefix hd2))
  simp only [leBytes_length] at a1 a2
  have hne : ∀ n v, leBytes (n + 1) v ≠ [] := leBytes_ne_nil
  have b1 := off_le_of_drop (bs := leBytes 4 (4 + (fe.head ce ++ encodeInsns fi).length) ++ (leBytes 4 ((Entry.fde fe).id kind es
    (offsetOf es i)) ++ fe.head ce)) (by simpa using hd1) (fun h => hne _ _ (List.append_eq_nil_iff.1 h).1)
  have b2 := off_le_of_drop (bs := leBytes 4 (4 + (ce.head ++ encodeInsns ci).length) ++ (leBytes 4 ((Entry.cie ce).id kind es
    (offsetOf es fe.cie)) ++ ce.head)) (by simpa using hd2) (fun h => hne _ _ (List.append_eq_nil_iff.1 h).1)
  simp only [List.length_append, leBytes_length] at b1 b2
  have hk1 : (BitVec.ofNat 32 ce.codeAlign).toNat = ce.codeAlign := by
    rw [BitVec.toNat_ofNat]; exact Nat.mod_eq_of_lt hce.1
  have hk2 : (BitVec.ofInt 32 ce.dataAlign).toInt = ce.dataAlign := by
    have h1 := hce.2.1
    have h2 := hce.2.2.1
    rw [BitVec.toInt_ofInt]; apply Int.bmod_eq_of_le <;> omega
  subst hfde
  refine C13_row_partial d (emit kind es (offsetOf es (fe.cie + 1)) (es.drop (fe.cie + 1)) ++ tail)
    (emit kind es (offsetOf es (i + 1)) (es.drop (i + 1)) ++ tail) hw _ ci fi hci hfi ?_ ?_ ?_ ?_ ?_ ini ?_ t ?_ addr haddr
  · exact a2
  · show offsetOf es fe.cie + 8 + ce.bytes.length = offsetOf es fe.cie + 8 + ce.head.length + (encodeInsns ci).length
    simp only [CieEnc.bytes, hcb, List.length_append]; omega
  · exact a1
  · show offsetOf es i + 8 + (fe.bytes ce).length = offsetOf es i + 8 + (fe.head ce).length + (encodeInsns fi).length
    simp only [FdeEnc.bytes, hfb, List.length_append]; omega
  · exact ⟨by show offsetOf es i + 8 + (fe.head ce).length ≤ _; omega,
      by show offsetOf es fe.cie + 8 + ce.head.length ≤ _; omega⟩
  · show finalRow ⟨(BitVec.ofNat 32 ce.codeAlign).toNat, (BitVec.ofInt 32 ce.dataAlign).toInt⟩ _ _ _ = _
    rw [hk1, hk2]; exact hini
  · show rows ⟨(BitVec.ofNat 32 ce.codeAlign).toNat, (BitVec.ofInt 32 ce.dataAlign).toInt⟩ _ _ _ = _
    rw [hk1, hk2]; exact ht

-- non-vacuity: the usual push %rbp; mov %rsp,%rbp prologue gives three rows
example : (finalRow ⟨1, -8⟩ Row.init ⟨0, Row.init, []⟩ [.defCfa 7 8, .offset 16 1, .nop]).isSome = true := by decide
example (ini : Row) (h : ini.cfa = .regOff 7 8) : (rows ⟨1, -8⟩ ini ⟨0x1000, ini, []⟩
    [.advance 1, .defCfaOffset 16, .offset 6 2, .advance 3, .defCfaRegister 6, .remember, .advance 0x20, .restore 6,
     .defCfa 7 8, .advance 1, .restoreState]).map (·.map Prod.fst) =
    some [0x1000, 0x1001, 0x1004, 0x1024, 0x1025] := by
  simp [rows, TabState.step, TabState.advance, Row.set, Insn.endsRow, h]

/-- C13, outside the proved range: the distance of an advance is multiplied by the code alignment factor in 32 bits, so
a long advance with a factor above 1 stays where it was. -/
theorem C13_advance_wraps :
    (Dwarf.advance { sampleCIE with codeAlign := 4 } 0x1000#64 0x40000000#32) = 0x1000#64 := by decide

/-! ### C14 -/

/-- Instruction sequences in which every restore-state undoes a remember-state of the same sequence. -/
inductive Balanced : List Insn → Prop where
  | nil : Balanced []
  | plain (i : Insn) (is : List Insn) : i ≠ .remember → i ≠ .restoreState → Balanced is → Balanced (i :: is)
  | nest (a b : List Insn) : Balanced a → Balanced b → Balanced (.remember :: a ++ .restoreState :: b)

/-- Execute a number of instructions. -/
def execN (d : List Byte) (cie : CIE) (df : CallFrame) : Nat → ExecState → Parse ExecState
  | 0, st => pure st
  | n + 1, st => do
      let st ← execOne d cie df st
      execN d cie df n st

/-- The table construction over a sequence. -/
def stepAll (k : Factors) (ini : Row) : TabState → List Insn → Option TabState
  | s, [] => some s
  | s, i :: is => (s.step k ini i).bind (fun s => stepAll k ini s is)

theorem stepAll_append (k : Factors) (ini : Row) (a b : List Insn) : ∀ s,
    stepAll k ini s (a ++ b) = (stepAll k ini s a).bind (fun s => stepAll k ini s b) := by
  induction a with
  | nil => intro s; rfl
  | cons i a ih =>
    intro s
    simp only [List.cons_append, stepAll]
    cases s.step k ini i with
    | none => rfl
    | some s' => exact ih s'

theorem step_stack {k : Factors} {ini : Row} {s s' : TabState} {i : Insn} (h1 : i ≠ .remember) (h2 : i ≠ .restoreState)
    (h : s.step k ini i = some s') : s'.stack = s.stack := by
  have hadv : ∀ delta, s.advance k delta = some s' → s'.stack = s.stack := by
    intro delta h
    unfold TabState.advance at h
    split at h
    · simp only [Option.some.injEq] at h; subst h; rfl
    · simp at h
  cases i <;> simp only [TabState.step] at h
  case remember => exact absurd rfl h1
  case restoreState => exact absurd rfl h2
  case setLoc a =>
    split at h
    · simp only [Option.some.injEq] at h; subst h; rfl
    · simp at h
  case advance d => exact hadv _ h
  case advance1 d => exact hadv _ h
  case advance2 d => exact hadv _ h
  case advance4 d => exact hadv _ h
  case defCfaRegister r =>
    split at h
    · simp only [Option.some.injEq] at h; subst h; rfl
    · simp at h
  case defCfaOffset r =>
    split at h
    · simp only [Option.some.injEq] at h; subst h; rfl
    · simp at h
  case defCfaOffsetSf r =>
    split at h
    · simp only [Option.some.injEq] at h; subst h; rfl
    · simp at h
  all_goals (simp only [Option.some.injEq] at h; subst h; rfl)

theorem balanced_stack {k : Factors} {ini : Row} {is : List Insn} (hb : Balanced is) : ∀ {s s' : TabState},
    stepAll k ini s is = some s' → s'.stack = s.stack := by
  induction hb with
  | nil => intro s s' h; simp only [stepAll, Option.some.injEq] at h; subst h; rfl
  | plain i is h1 h2 _ ih =>
    intro s s' h
    simp only [stepAll, Option.bind_eq_some_iff] at h
    obtain ⟨s1, e1, e2⟩ := h
    rw [ih e2, step_stack h1 h2 e1]
  | nest a b _ _ iha ihb =>
    intro s s' h
    simp only [List.cons_append, stepAll, TabState.step, Option.bind_some, stepAll_append, Option.bind_eq_some_iff] at h
    obtain ⟨s1, e1, s2, e2, e3⟩ := h
    have := iha e1
    dsimp only at this
    rw [this] at e2
    simp only [Option.some.injEq] at e2
    subst e2
    have := ihb e3
    exact this

theorem execN_stepAll (d rest : List Byte) (hw : d.length < W64) (cie : CIE) (df : CallFrame) (ini : Row) (hini : Holds d df ini)
    (is : List Insn) : ∀ (off : Nat) (st : ExecState) (s s' : TabState), StRel d st s → (∀ i ∈ is, i.WF) →
      d.drop off = encodeInsns is ++ rest → stepAll ⟨cie.codeAlign.toNat, cie.dataAlign.toInt⟩ ini s is = some s' →
      ∃ st', execN d cie df is.length st off = .ok (st', off + (encodeInsns is).length) ∧ StRel d st' s' := by
  induction is with
  | nil =>
    intro off st s s' hs _ _ h
    simp only [stepAll, Option.some.injEq] at h
    subst h
    exact ⟨st, rfl, hs⟩
  | cons i is ih =>
    intro off st s s' hs hwf hd h
    simp only [stepAll, Option.bind_eq_some_iff] at h
    obtain ⟨s1, e1, e2⟩ := h
    have hd' : d.drop off = i.encode ++ (encodeInsns is ++ rest) := by rw [hd]; simp [encodeInsns]
    obtain ⟨st1, g1, g2⟩ := execOne_insn d _ hw cie _ rfl rfl df ini hini st s s1 hs i (hwf i List.mem_cons_self) off hd' e1
    obtain ⟨st', r1, r2⟩ := ih _ st1 s1 s' g2 (fun j hj => hwf j (List.mem_cons_of_mem _ hj)) (drop_prefix hd') e2
    refine ⟨st', ?_, r2⟩
    rw [List.length_cons, execN, Parse.bind_ok g1, r1]
    have : (encodeInsns (i :: is)).length = i.encode.length + (encodeInsns is).length := by simp [encodeInsns]
    rw [this, Nat.add_assoc]

/-- C14. Whatever well-nested instructions stand between a remember-state and its restore-state, the rules in force after
it are those in force before it (the location alone may have moved). -/
theorem C14_remember_restore (d rest : List Byte) (hw : d.length < W64) (cie : CIE) (df : CallFrame) (ini : Row)
    (hini : Holds d df ini) (body : List Insn) (hb : Balanced body) (hwf : ∀ i ∈ body, i.WF)
    (off : Nat) (st : ExecState) (s s' : TabState) (hs : StRel d st s)
    (hd : d.drop off = encodeInsns (.remember :: body ++ [.restoreState]) ++ rest)
    (hvalid : stepAll ⟨cie.codeAlign.toNat, cie.dataAlign.toInt⟩ ini s (.remember :: body ++ [.restoreState]) = some s') :
    ∃ st', execN d cie df (body.length + 2) st off =
        .ok (st', off + (encodeInsns (.remember :: body ++ [.restoreState])).length) ∧
      Holds d st'.frame s.row ∧ StackRel d st'.stack s.stack := by
  have hwf' : ∀ i ∈ (.remember :: body ++ [.restoreState] : List Insn), i.WF := by
    intro i hi
    simp only [List.cons_append, List.mem_cons, List.mem_append, List.not_mem_nil, or_false] at hi
    rcases hi with rfl | hi | rfl
    · trivial
    · exact hwf i hi
    · trivial
  obtain ⟨st', g1, g2⟩ := execN_stepAll d rest hw cie df ini hini _ off st s s' hs hwf' hd hvalid
  have hlen : (.remember :: body ++ [.restoreState] : List Insn).length = body.length + 2 := by simp
  rw [hlen] at g1
  refine ⟨st', g1, ?_⟩
  simp only [List.cons_append, stepAll, TabState.step, Option.bind_some, stepAll_append, Option.bind_eq_some_iff] at hvalid
  obtain ⟨s1, e1, s2, e2, e3⟩ := hvalid
  have := balanced_stack hb e1
  dsimp only at this
  rw [this] at e2
  simp only [Option.some.injEq] at e2 e3
  subst e2
  subst e3
  exact ⟨g2.row, g2.stack⟩

/-- C14. Restoring a register gives it the rule the common entry's program left for it. -/
theorem C14_restore_register (d rest : List Byte) (cie : CIE) (df : CallFrame) (ini : Row)
    (hini : Holds d df ini) (r : Nat) (hr : r < 64) (off : Nat) (st : ExecState)
    (hd : d.drop off = Insn.encode (.restore r) ++ rest) :
    ∃ st', execOne d cie df st off = .ok (st', off + 1) ∧
      st'.frame.get (BitVec.ofNat 32 r) = df.get (BitVec.ofNat 32 r) ∧
      (∀ x, x ≠ BitVec.ofNat 32 r → st'.frame.get x = st.frame.get x) ∧
      st'.frame.cfaReg = st.frame.cfaReg ∧ st'.frame.cfaValue = st.frame.cfaValue ∧ st'.stack = st.stack ∧
      Denotes d (st'.frame.get (BitVec.ofNat 32 r)) (ini.rule (BitVec.ofNat 32 r)) := by
  simp only [Insn.encode, List.cons_append, List.nil_append] at hd
  unfold execOne
  rw [Parse.bind_ok (getu8_prefix d _ _ off hd)]
  obtain ⟨l1, -, l3⟩ := low_ops r 3 hr (by decide)
  simp only [Nat.reduceMul] at l1 l3
  simp only [execOp, l1, l3]
  rw [Parse.pure_apply, restoreReg_eq]
  refine ⟨_, rfl, by simp [get_set], ?_, rfl, rfl, rfl, ?_⟩
  · intro x hx; simp [get_set, hx]
  · simp only [get_set, if_true]; exact hini.2 _

/-- C14, the error branch: a restore-state with nothing remembered reads the top of an empty stack (undefined
behaviour), it is not rejected. -/
theorem C14_unmatched_restore_ub (cie : CIE) (df f : CallFrame) (a : BitVec 64) :
    execOne [0x0b#8] cie df ⟨a, f, []⟩ 0 = .ub := by
  unfold execOne
  rw [Parse.bind_ok (getu8_prefix [0x0b#8] [] 0x0b#8 0 rfl)]
  simp [execOp]

example : Balanced [.defCfaOffset 8, .remember, .restore 6, .restoreState, .nop] :=
  .plain _ _ (by simp) (by simp) (.nest [.restore 6] [.nop] (.plain _ _ (by simp) (by simp) .nil) (.plain _ _ (by simp) (by simp) .nil))

end Pstack.Props
