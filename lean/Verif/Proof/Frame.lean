import Verif.Proof.Cfi
import Verif.Spec.FrameMeaning
namespace Pstack.Dwarf
open Pstack.Reader Pstack.Spec

theorem off_lt_of_drop {d : List Byte} {off : Nat} {x : Byte} {rest : List Byte} (h : d.drop off = x :: rest) :
    off < d.length := by
  have := congrArg List.length h
  simp at this; omega

theorem off_le_of_drop {d : List Byte} {off : Nat} {bs rest : List Byte} (h : d.drop off = bs ++ rest) (hne : bs ≠ []) :
    off + bs.length ≤ d.length := by
  have := congrArg List.length h
  have := List.length_pos_iff.2 hne
  simp at *; omega

theorem memString_prefix (d s rest : List Byte) (off : Nat) (hs : ∀ b ∈ s, b ≠ 0#8) (h : d.drop off = s ++ 0#8 :: rest) :
    memString d off = .ok s := by
  unfold memString
  rw [h, if_pos (by simp), List.takeWhile_append_of_pos (fun a ha => by simpa using hs a ha)]
  simp

theorem getstring_prefix (d s rest : List Byte) (off : Nat) (hs : ∀ b ∈ s, b ≠ 0#8)
    (h : d.drop off = s ++ 0#8 :: rest) (hw : d.length < W64) :
    getstring d off = .ok (s, off + (s.length + 1)) := by
  have hlen := congrArg List.length h
  simp at hlen
  unfold getstring
  rw [memString_prefix d s rest off hs h]
  dsimp only
  rw [Nat.mod_eq_of_lt (by omega)]; rfl

/-- Effect of one augmentation item on the loop state. -/
def itemState (st : AugState) : AugItem → AugState
  | .personality .. => st
  | .lsda e => { st with lsdaEncoding := e }
  | .ptr f b => { st with addressEncoding := ptrEnc f b false }
  | .signal => { st with isSignalHandler := true }

theorem augStep_item (d rest : List Byte) (sa off : Nat) (st : AugState) (it : AugItem) (hit : it.WF)
    (hw : d.length < W64) (h : d.drop off = it.bytes ++ rest) :
    augStep d sa st it.char off = .ok ((itemState st it, false), off + it.bytes.length) := by
  unfold augStep
  cases it with
  | personality f b ind v =>
    rw [if_neg (by simp [AugItem.char]), if_pos (by rfl)]
    simp only [AugItem.bytes, List.cons_append] at h
    rw [Parse.bind_ok (getu8_prefix d _ _ off h)]
    have h2 := drop_prefix (bs := [_]) h
    unfold ptrEnc
    rw [Parse.bind_ok (decodeAddress_spec d rest (off + 1) sa sa f b ind v hit hw h2)]
    simp [Parse.pure_apply, AugItem.bytes, itemState]; omega
  | lsda e =>
    rw [if_neg (by simp [AugItem.char]), if_neg (by simp [AugItem.char]), if_pos (by rfl)]
    rw [Parse.bind_ok (getu8_prefix d _ _ off h)]
    rfl
  | ptr f b =>
    rw [if_neg (by simp [AugItem.char]), if_neg (by simp [AugItem.char]), if_neg (by simp [AugItem.char]), if_pos (by rfl)]
    rw [Parse.bind_ok (getu8_prefix d _ _ off h)]
    rfl
  | signal =>
    rw [if_neg (by simp [AugItem.char]), if_neg (by simp [AugItem.char]), if_neg (by simp [AugItem.char]), if_neg (by simp [AugItem.char]), if_pos (by rfl)]
    rfl

theorem augLoop_items (d : List Byte) (sa : Nat) (hw : d.length < W64) (items : List AugItem) :
    ∀ (rest : List Byte) (off : Nat) (st : AugState), (∀ i ∈ items, i.WF) →
      d.drop off = (items.map AugItem.bytes).flatten ++ rest →
      augLoop d sa st (items.map AugItem.char) off =
        .ok ({ endaugdata := st.endaugdata
               addressEncoding := items.foldl (fun acc i => match i with | .ptr f b => ptrEnc f b false | _ => acc)
                 st.addressEncoding
               lsdaEncoding := items.foldl (fun acc i => match i with | .lsda e => e | _ => acc) st.lsdaEncoding
               isSignalHandler := st.isSignalHandler || items.any (fun i => match i with | .signal => true | _ => false) },
          off + (items.map AugItem.bytes).flatten.length) := by
  induction items with
  | nil => intro rest off st _ _; simp [augLoop, Parse.pure_apply]
  | cons it items ih =>
    intro rest off st hwf h
    simp only [List.map_cons, List.flatten_cons, List.append_assoc] at h
    rw [List.map_cons, augLoop, Parse.bind_ok (augStep_item d _ sa off st it (hwf it List.mem_cons_self) hw h)]
    have h2 := drop_prefix h
    have := ih rest _ (itemState st it) (fun i hi => hwf i (List.mem_cons_of_mem _ hi)) h2
    simp only [Bool.false_eq_true, if_false]
    rw [this]
    cases it <;> simp [Nat.add_assoc, itemState]

theorem foldl_enc (items : List AugItem) : ∀ (acc : PtrFmt × PtrBase),
    items.foldl (fun acc i => match i with | .ptr f b => ptrEnc f b false | _ => acc) (ptrEnc acc.1 acc.2 false) =
    (let p := items.foldl (fun acc i => match i with | .ptr f b => (f, b) | _ => acc) acc; ptrEnc p.1 p.2 false) := by
  induction items with
  | nil => intro acc; rfl
  | cons it items ih =>
    intro acc
    cases it with
    | ptr f b => exact ih (f, b)
    | personality => exact ih acc
    | lsda => exact ih acc
    | signal => exact ih acc

theorem char_ne_zero (items : List AugItem) : ∀ b ∈ (0x7a#8 :: items.map AugItem.char), b ≠ 0#8 := by
  intro b hb
  simp only [List.mem_cons, List.mem_map] at hb
  rcases hb with rfl | ⟨i, _, rfl⟩
  · decide
  · cases i <;> simp [AugItem.char]

theorem augTail (d rest : List Byte) (sa off : Nat) (c : CieEnc)
    (hitems : match c.aug with | none => True | some (items, _) => ∀ i ∈ items, i.WF)
    (hw : d.length < W64) (h : d.drop off = c.augData ++ rest) :
    augLoop d sa ⟨off, 0x04#8, 0#8, false⟩ c.augString off =
      .ok ({ endaugdata := off + c.augData.length
             addressEncoding := ptrEnc c.ptr.1 c.ptr.2 false
             lsdaEncoding := c.lsdaEnc
             isSignalHandler := c.signal },
           off + (c.augData.length - (match c.aug with | none => [] | some (_, pad) => pad).length)) := by
  cases hca : c.aug with
  | none =>
    simp only [CieEnc.augString, CieEnc.augData, CieEnc.ptr, CieEnc.lsdaEnc, CieEnc.signal, hca]
    simp only [augLoop, Parse.pure_apply, List.length_nil, Nat.add_zero]
    rfl
  | some p =>
    obtain ⟨items, pad⟩ := p
    rw [hca] at hitems
    simp only [CieEnc.augString, CieEnc.augData, CieEnc.ptr, CieEnc.lsdaEnc, CieEnc.signal, hca] at h ⊢
    generalize hdat : (items.map AugItem.bytes).flatten = dat at *
    have hne : encodeU (dat ++ pad).length ≠ [] := by rw [encodeU]; split <;> simp
    have hle1 := off_le_of_drop (bs := encodeU (dat ++ pad).length ++ (dat ++ pad)) h (fun he => hne (List.append_eq_nil_iff.1 he).1)
    rw [List.append_assoc] at h
    have hlt : (dat ++ pad).length < 2 ^ 64 := by
      rw [List.length_append] at hle1
      have : d.length < 2 ^ 64 := by rw [W64_eq] at hw; exact hw
      omega
    have e1 : (BitVec.ofNat 64 (dat ++ pad).length).toNat = (dat ++ pad).length := by
      rw [BitVec.toNat_ofNat]; exact Nat.mod_eq_of_lt hlt
    have g1 := getuleb_prefix d _ (BitVec.ofNat 64 (dat ++ pad).length) off (by rw [e1]; exact h) hw
    rw [e1] at g1
    have h1 := drop_prefix h
    rw [augLoop]
    have hz : augStep d sa ⟨off, 0x04#8, 0#8, false⟩ 0x7a#8 off =
        .ok ((⟨off + (encodeU (dat ++ pad).length ++ (dat ++ pad)).length, 0x04#8, 0#8, false⟩, false),
          off + (encodeU (dat ++ pad).length).length) := by
      unfold augStep
      rw [if_pos rfl, Parse.bind_ok g1, Parse.bind_ok (show getOffset _ = .ok (_, _) from rfl), Parse.pure_apply, e1,
        Nat.mod_eq_of_lt (by rw [List.length_append] at hle1; omega)]
      simp only [List.length_append]
      congr 4; omega
    rw [Parse.bind_ok hz]
    simp only [Bool.false_eq_true, if_false]
    rw [augLoop_items d sa hw items (pad ++ rest) _ _ hitems (by rw [hdat]; simpa using h1)]
    have := foldl_enc items (.udata8, .abs)
    rw [show ptrEnc PtrFmt.udata8 PtrBase.abs false = 0x04#8 by decide] at this
    simp only [this, hdat, Bool.false_or]
    congr 2
    simp only [List.length_append]; omega

/-- The common tail of the CIE constructor, from the alignment factors on. -/
theorem parseCIE_tail (d rest : List Byte) (sa off endOff : Nat) (c : CieEnc) (hc : c.WF)
    (hw : d.length < W64)
    (h : d.drop off = encodeU c.codeAlign ++ (encodeS c.dataAlign ++ ([c.rar] ++ (c.augData ++ rest)))) :
    (do
      let codeAlign ← getuleb128 d
      let dataAlign ← getsleb128 d
      let rar ← getu8 d
      let off ← getOffset
      let st ← augLoop d sa ⟨off, 0x04#8, 0#8, false⟩ c.augString
      alignAug d.length st.endaugdata
      let off ← getOffset
      pure { addressEncoding := st.addressEncoding, isSignalHandler := st.isSignalHandler,
             codeAlign := codeAlign.setWidth 32, dataAlign := dataAlign.setWidth 32, rar := rar.toNat,
             instructions := off, endOff := endOff, augmentation := c.augString, lsdaEncoding := st.lsdaEncoding } :
      Parse CIE) off =
    .ok ({ addressEncoding := ptrEnc c.ptr.1 c.ptr.2 false
           isSignalHandler := c.signal
           codeAlign := BitVec.ofNat 32 c.codeAlign
           dataAlign := BitVec.ofInt 32 c.dataAlign
           rar := c.rar.toNat
           instructions := off + (encodeU c.codeAlign ++ (encodeS c.dataAlign ++ ([c.rar] ++ c.augData))).length
           endOff := endOff
           augmentation := c.augString
           lsdaEncoding := c.lsdaEnc },
      off + (encodeU c.codeAlign ++ (encodeS c.dataAlign ++ ([c.rar] ++ c.augData))).length) := by
  obtain ⟨hca, hda1, hda2, hitems⟩ := hc
  have e1 : (BitVec.ofNat 64 c.codeAlign).toNat = c.codeAlign := by
    rw [BitVec.toNat_ofNat]; exact Nat.mod_eq_of_lt (by omega)
  have e2 : (BitVec.ofInt 64 c.dataAlign).toInt = c.dataAlign := by
    rw [BitVec.toInt_ofInt]; apply Int.bmod_eq_of_le <;> omega
  have g1 := getuleb_prefix d _ (BitVec.ofNat 64 c.codeAlign) off (by rw [e1]; exact h) hw
  rw [e1] at g1
  have h1 := drop_prefix h
  have g2 := getsleb_prefix d _ (BitVec.ofInt 64 c.dataAlign) _ (by rw [e2]; exact h1) hw
  rw [e2] at g2
  have h2 := drop_prefix h1
  have g3 := getu8_prefix d _ c.rar _ h2
  have h3 := drop_prefix (bs := [c.rar]) h2
  rw [Parse.bind_ok g1, Parse.bind_ok g2, Parse.bind_ok g3, Parse.bind_ok (show getOffset _ = .ok (_, _) from rfl)]
  have ec : (BitVec.ofNat 64 c.codeAlign).setWidth 32 = BitVec.ofNat 32 c.codeAlign := by
    apply BitVec.eq_of_toNat_eq; simp
  have ed : (BitVec.ofInt 64 c.dataAlign).setWidth 32 = BitVec.ofInt 32 c.dataAlign := by
    apply BitVec.eq_of_toInt_eq
    rw [BitVec.toInt_setWidth, BitVec.toInt_ofInt, BitVec.toNat_ofInt]
    rw [Int.bmod_def, Int.bmod_def]
    omega
  rw [ec, ed]
  generalize hoff3 : off + (encodeU c.codeAlign).length + (encodeS c.dataAlign).length + 1 = off3
  have h3' : d.drop off3 = c.augData ++ rest := by rw [← hoff3]; exact h3
  have hlen : off + (encodeU c.codeAlign ++ (encodeS c.dataAlign ++ ([c.rar] ++ c.augData))).length
      = off3 + c.augData.length := by
    rw [← hoff3]; simp; omega
  rw [hlen]
  have ha := augTail d rest sa off3 c hitems hw h3'
  rw [Parse.bind_ok ha]
  dsimp only
  generalize off3 + (c.augData.length - (match c.aug with | none => [] | some (_, pad) => pad).length) = off4
  have hal : alignAug d.length (off3 + c.augData.length) off4 = .ok ((), off3 + c.augData.length) := by
    unfold alignAug
    by_cases he : off4 = off3 + c.augData.length
    · subst he; simp
    · rw [if_pos he]
      have hle : off3 + c.augData.length ≤ d.length := by
        by_cases hn : c.augData = []
        · rw [hn]
          have := off_lt_of_drop h2
          simp at this ⊢; omega
        · exact off_le_of_drop h3' hn
      unfold setOffset; rw [if_pos hle]
  rw [Parse.bind_ok hal, Parse.bind_ok (show getOffset _ = .ok (_, _) from rfl)]
  rfl

theorem parseCIE_spec (d rest : List Byte) (sa off endOff : Nat) (c : CieEnc) (hc : c.WF) (hoff : 8 ≤ off)
    (hw : d.length < W64) (h : d.drop off = c.head ++ rest) :
    parseCIE d d.length sa endOff off = .ok ({ c.meaning (off - 8) with endOff := endOff }, off + c.head.length) := by
  have hs : ∀ b ∈ c.augString, b ≠ 0#8 := by
    unfold CieEnc.augString
    cases c.aug with
    | none => simp
    | some p => exact char_ne_zero p.1
  have hm : off - 8 + 8 = off := by omega
  unfold parseCIE
  unfold CieEnc.head at h
  simp only [List.append_assoc] at h
  have h0 : d.drop off = c.version :: _ := h
  rw [Parse.bind_ok (getu8_prefix d _ _ off h0)]
  have h1 := drop_prefix (bs := [_]) h
  rw [Parse.bind_ok (getstring_prefix d c.augString _ (off + 1) hs h1 hw)]
  rw [← List.append_assoc] at h1
  have h2 := drop_prefix h1
  simp only [List.length_append, List.length_singleton] at h2
  have hsk : skipSizes d c.version (off + 1 + (c.augString.length + 1)) = .ok ((),
      off + 1 + (c.augString.length + 1) + (if 4 ≤ c.version.toNat then [c.addrSize, c.segSize] else []).length) := by
    unfold skipSizes
    by_cases hv : 4 ≤ c.version.toNat
    · rw [if_pos hv] at h2
      rw [if_pos hv, if_pos hv]
      have h2' : d.drop _ = c.addrSize :: c.segSize :: _ := h2
      have h3 := drop_prefix (bs := [_]) h2'
      rw [Parse.bind_ok (getu8_prefix d _ _ _ h2'), Parse.bind_ok (getu8_prefix d _ _ (off + 1 + (c.augString.length + 1) + 1) h3)]; rfl
    · rw [if_neg hv, if_neg hv]; rfl
  rw [Parse.bind_ok hsk]
  have := parseCIE_tail d rest sa _ endOff c hc hw (drop_prefix h2)
  rw [this]
  have hl : off + 1 + (c.augString.length + 1) + (if 4 ≤ c.version.toNat then [c.addrSize, c.segSize] else []).length +
      (encodeU c.codeAlign ++ (encodeS c.dataAlign ++ ([c.rar] ++ c.augData))).length = off + c.head.length := by
    simp only [CieEnc.head, List.length_append, List.length_cons, List.length_nil]; omega
  rw [hl]
  simp only [CieEnc.meaning, hm]

theorem getAug_prefix (d aug rest : List Byte) : ∀ off, d.drop off = aug ++ rest →
    getAug d aug.length off = .ok (aug, off + aug.length) := by
  induction aug with
  | nil => intro off _; rfl
  | cons b aug ih =>
    intro off h
    rw [List.length_cons, getAug, Parse.bind_ok (getu8_prefix d _ b off h),
      Parse.bind_ok (ih (off + 1) (drop_prefix (bs := [b]) h)), Parse.pure_apply]
    congr 2; omega

theorem ptrEnc_and (f : PtrFmt) (b : PtrBase) (ind : Bool) : ptrEnc f b ind &&& 0x0f#8 = ptrEnc f .abs false := by
  cases f <;> cases b <;> cases ind <;> decide

theorem parseFDE_spec (d rest : List Byte) (sa off endOff cieOff : Nat) (c : CieEnc) (f : FdeEnc) (hf : f.WF c)
    (hoff : 8 ≤ off) (hw : d.length < W64) (h : d.drop off = f.head c ++ rest) :
    parseFDE d sa (c.meaning cieOff) endOff off =
      .ok ({ f.meaning c sa (off - 8) cieOff with endOff := endOff }, off + (f.head c).length) := by
  have hm : off - 8 + 8 = off := by omega
  unfold parseFDE
  unfold FdeEnc.head at h
  simp only [List.append_assoc] at h
  have e1 : (c.meaning cieOff).addressEncoding = BitVec.ofNat 8 (c.ptr.1.code + c.ptr.2.code + (if false then 128 else 0)) := rfl
  have e2 : (c.meaning cieOff).addressEncoding &&& 0x0f#8 =
      BitVec.ofNat 8 (c.ptr.1.code + PtrBase.abs.code + (if false then 128 else 0)) := ptrEnc_and _ _ _
  rw [e2, e1, Parse.bind_ok (decodeAddress_spec d _ off sa sa _ _ _ _ hf.1 hw h)]
  simp only [Bool.false_eq_true, if_false]
  have h1 := drop_prefix h
  have g2 := decodeAddress_spec d _ _ sa sa _ .abs false _ hf.2 hw h1
  simp only [Bool.false_eq_true, if_false] at g2
  rw [Parse.bind_ok g2]
  have h2 := drop_prefix h1
  have hb0 : BitVec.ofInt 64 f.range + BitVec.ofNat 64 (PtrBase.abs.value
    (off + (c.ptr.1.encode f.start).length + sa) sa sa) = BitVec.ofInt 64 f.range := by simp [PtrBase.value]
  rw [hb0]
  have e3 : (c.meaning cieOff).augmentation = c.augString := rfl
  have hfa : fdeAug d (c.meaning cieOff) (off + (c.ptr.1.encode f.start).length + (c.ptr.1.encode f.range).length) =
      .ok (if c.aug.isSome then f.aug else [], off + (f.head c).length) := by
    unfold fdeAug
    rw [e3]
    cases hca : c.aug with
    | none =>
      have : c.augString = [] := by unfold CieEnc.augString; rw [hca]
      rw [this, if_neg (by simp)]
      simp only [FdeEnc.head, hca, Parse.pure_apply, Option.isSome_none, Bool.false_eq_true, if_false,
        List.length_append, List.length_nil]
      congr 2; omega
    | some p =>
      have hz : c.augString.head? = some 0x7a#8 := by unfold CieEnc.augString; rw [hca]; rfl
      rw [hz, if_pos rfl]
      rw [hca] at h2
      simp only [Option.isSome_some, if_true, List.append_assoc] at h2
      have hle := congrArg List.length h2
      simp only [List.length_append, List.length_drop] at hle
      have e4 : (BitVec.ofNat 64 f.aug.length).toNat = f.aug.length := by
        rw [BitVec.toNat_ofNat]; apply Nat.mod_eq_of_lt
        rw [← W64_eq]; omega
      have g3 := getuleb_prefix d _ (BitVec.ofNat 64 f.aug.length) _ (by rw [e4]; exact h2) hw
      rw [e4] at g3
      rw [Parse.bind_ok g3, e4, getAug_prefix d f.aug rest _ (drop_prefix h2)]
      simp only [FdeEnc.head, hca, Option.isSome_some, if_true, List.length_append]
      congr 2; omega
  rw [Parse.bind_ok hfa, Parse.bind_ok (show getOffset _ = .ok (_, _) from rfl), Parse.pure_apply]
  simp only [FdeEnc.meaning, hm]

/-! ### layout -/

theorem record_length (kind : FrameKind) (es : List Entry) (off : Nat) (e : Entry) :
    (e.record kind es off).length = e.size es := by
  simp only [Entry.record, Entry.size, List.length_append, leBytes_length]

theorem emit_length (kind : FrameKind) (es : List Entry) (l : List Entry) : ∀ off,
    (emit kind es off l).length = (l.map (Entry.size es)).sum := by
  induction l with
  | nil => intro off; rfl
  | cons e l ih => intro off; simp only [emit, List.length_append, record_length, ih, List.map_cons, List.sum_cons]

theorem emit_append (kind : FrameKind) (es : List Entry) (l m : List Entry) : ∀ off,
    emit kind es off (l ++ m) = emit kind es off l ++ emit kind es (off + (l.map (Entry.size es)).sum) m := by
  induction l with
  | nil => intro off; simp [emit]
  | cons e l ih =>
    intro off
    simp only [List.cons_append, emit, ih, List.map_cons, List.sum_cons, List.append_assoc, Nat.add_assoc]

theorem section_drop (kind : FrameKind) (es : List Entry) (tail : List Byte) (i : Nat) (hi : i < es.length) :
    (frameSection kind es ++ tail).drop (offsetOf es i) =
      es[i].record kind es (offsetOf es i) ++ (emit kind es (offsetOf es (i + 1)) (es.drop (i + 1)) ++ tail) := by
  have hsplit : es = es.take i ++ (es[i] :: es.drop (i + 1)) := by
    rw [← List.drop_eq_getElem_cons hi, List.take_append_drop]
  have h1 : frameSection kind es = emit kind es 0 (es.take i) ++
      emit kind es (offsetOf es i) (es[i] :: es.drop (i + 1)) := by
    unfold frameSection
    conv => lhs; rw [show emit kind es 0 es = emit kind es 0 (es.take i ++ (es[i] :: es.drop (i + 1))) by rw [← hsplit]]
    rw [emit_append]
    simp [offsetOf]
  have hl : (emit kind es 0 (es.take i)).length = offsetOf es i := emit_length kind es _ 0
  have hnext : offsetOf es i + es[i].size es = offsetOf es (i + 1) := by
    unfold offsetOf
    rw [List.take_succ_eq_append_getElem hi, List.map_append, List.sum_append]; rfl
  rw [h1, List.append_assoc, List.drop_append_of_le_length (by omega), List.drop_of_length_le (by omega)]
  simp only [emit, List.nil_append, List.append_assoc, hnext]

theorem offsetOf_succ (es : List Entry) (i : Nat) (hi : i < es.length) :
    offsetOf es (i + 1) = offsetOf es i + es[i].size es := by
  unfold offsetOf
  rw [List.take_succ_eq_append_getElem hi, List.map_append, List.sum_append]; rfl

theorem offsetOf_lt (es : List Entry) (i j : Nat) (hij : i < j) (hj : j ≤ es.length) : offsetOf es i < offsetOf es j := by
  induction j with
  | zero => omega
  | succ j ih =>
    rw [offsetOf_succ es j (by omega)]
    have : 8 ≤ es[j].size es := by unfold Entry.size; omega
    by_cases h : i = j
    · subst h; omega
    · have := ih (by omega) (by omega); omega

theorem offsetOf_inj (es : List Entry) (i j : Nat) (hi : i ≤ es.length) (hj : j ≤ es.length)
    (h : offsetOf es i = offsetOf es j) : i = j := by
  rcases Nat.lt_trichotomy i j with h1 | h1 | h1
  · have := offsetOf_lt es i j h1 hj; omega
  · exact h1
  · have := offsetOf_lt es j i h1 hi; omega

theorem section_length (kind : FrameKind) (es : List Entry) : (frameSection kind es).length = offsetOf es es.length := by
  unfold frameSection offsetOf
  rw [emit_length, List.take_length]

theorem cieAt_lt {es : List Entry} {i : Nat} {c : CieEnc} (h : cieAt es i = some c) :
    ∃ hi : i < es.length, es[i] = .cie c := by
  unfold cieAt at h
  split at h
  · rename_i c' he
    simp only [Option.some.injEq] at h
    subst h
    have := List.getElem?_eq_some_iff.1 he
    exact this
  · simp at h

/-! ### records -/

theorem decodeHdr_spec (d rest : List Byte) (type : FIType) (off n id : Nat) (hn : 4 + n < 0xfffffff0) (hid : id < 2 ^ 32)
    (hw : d.length < W64) (hlen : off + 8 + n ≤ d.length)
    (h : d.drop off = leBytes 4 (4 + n) ++ (leBytes 4 id ++ rest)) :
    decodeHdr d type off = .ok (some (off + 8 + n,
      if isCIE type (BitVec.ofNat 64 id) then none else some (match type with
        | .ehFrame => (off + 4 + W64 - id) % W64
        | .debugFrame => id)), off + 8) := by
  unfold decodeHdr
  rw [Parse.bind_ok (getlength_32 d _ (4 + n) off hn h)]
  dsimp only
  rw [if_neg (by omega), Parse.bind_ok (show getOffset _ = .ok (_, _) from rfl)]
  have h1 := drop_prefix h
  rw [leBytes_length] at h1
  rw [Parse.bind_ok (getuint_leBytes d _ (off + 4) 4 id (by decide) (by omega) h1), Parse.pure_apply]
  have e : (BitVec.ofNat 64 id).toNat = id := by
    rw [BitVec.toNat_ofNat]; exact Nat.mod_eq_of_lt (by omega)
  rw [e, Nat.mod_eq_of_lt (show off + 4 + (4 + n) < W64 by omega)]
  congr 4; omega

/-- Every CIE remembered is a common entry of the section, under its own offset. -/
def SoundCIEs (es : List Entry) (cies : CIEs) : Prop :=
  ∀ o c, cies.lookup o = some c → ∃ i ce, cieAt es i = some ce ∧ o = offsetOf es i ∧ c = ce.meaning o

theorem SoundCIEs.at {es : List Entry} {cies : CIEs} (hs : SoundCIEs es cies) {i : Nat} {ce : CieEnc}
    (hi : cieAt es i = some ce) {c : CIE} (h : cies.lookup (offsetOf es i) = some c) : c = ce.meaning (offsetOf es i) := by
  obtain ⟨j, ce', h1, h2, h3⟩ := hs _ _ h
  obtain ⟨l1, -⟩ := cieAt_lt hi
  obtain ⟨l2, -⟩ := cieAt_lt h1
  have := offsetOf_inj es i j (by omega) (by omega) h2
  subst this
  rw [hi] at h1
  simp only [Option.some.injEq] at h1
  rw [h3, ← h1]

section
variable (kind : FrameKind) (es : List Entry) (hwf : WFEntries kind es) (tail : List Byte) (sa : Nat)
  (hw : (frameSection kind es ++ tail).length < W64)
include hwf hw

theorem rec_le (i : Nat) (hi : i < es.length) :
    offsetOf es i + es[i].size es ≤ (frameSection kind es ++ tail).length := by
  rw [← offsetOf_succ es i hi, List.length_append, section_length]
  by_cases h : i + 1 = es.length
  · rw [h]; omega
  · have := offsetOf_lt es (i + 1) es.length (by omega) (Nat.le_refl _); omega

theorem put_cie (fuel : Nat) (cies : CIEs) (hs : SoundCIEs es cies) (i : Nat) (ce : CieEnc) (hi : cieAt es i = some ce) :
    ∃ cies', putFDEorCIE (frameSection kind es ++ tail) kind.type sa (fuel + 1) cies (offsetOf es i) =
        (cies', .ok (.cie, offsetOf es (i + 1))) ∧ SoundCIEs es cies' ∧
      cies'.lookup (offsetOf es i) = some (ce.meaning (offsetOf es i)) := by
  obtain ⟨hlt, he⟩ := cieAt_lt hi
  have hmem : Entry.cie ce ∈ es := he ▸ List.getElem_mem hlt
  have hle := rec_le kind es hwf tail hw i hlt
  have hdrop := section_drop kind es tail i hlt
  have hnext := offsetOf_succ es i hlt
  have hsz := hwf.1 _ hmem
  rw [he] at hle hdrop hnext
  generalize (frameSection kind es ++ tail) = d at *
  generalize hoff : offsetOf es i = off at *
  have hsize : (Entry.cie ce).size es = 8 + ce.bytes.length := rfl
  rw [hsize] at hle hnext
  simp only [Entry.record, List.append_assoc] at hdrop
  have hid : (Entry.cie ce).id kind es off < 2 ^ 32 := by cases kind <;> simp [Entry.id]
  have hh := decodeHdr_spec d _ kind.type off ce.bytes.length _ hsz hid hw (by omega) hdrop
  have hcie : isCIE kind.type (BitVec.ofNat 64 ((Entry.cie ce).id kind es off)) = true := by
    cases kind <;> rfl
  rw [hcie] at hh
  simp only [if_true] at hh
  have h1 := drop_prefix hdrop
  have h2 := drop_prefix h1
  rw [leBytes_length, leBytes_length] at h2
  have h3 : d.drop (off + 8) = ce.head ++ (ce.insns ++ (emit kind es (offsetOf es (i + 1)) (es.drop (i + 1)) ++ tail)) := by
    rw [show off + 8 = off + 4 + 4 by omega, h2]; simp [Entry.body, CieEnc.bytes]
  have hp := parseCIE_spec d _ sa (off + 8) (off + 8 + ce.bytes.length) ce (hwf.2.1 _ hmem) (by omega) hw h3
  have hsub : off + 8 - 8 = off := by omega
  have hm : ({ ce.meaning (off + 8 - 8) with endOff := off + 8 + ce.bytes.length } : CIE) = ce.meaning off := by
    rw [hsub]; rfl
  rw [hm] at hp
  refine ⟨match cies.lookup off with | some _ => cies | none => (off, ce.meaning off) :: cies, ?_, ?_, ?_⟩
  · simp only [putFDEorCIE, hh]
    rw [if_neg (by omega), Option.getD_none, if_pos rfl]
    unfold putCIE
    rw [hp]
    dsimp only
    rw [show setOffset d.length (off + 8 + ce.bytes.length) (off + 8 + ce.head.length)
      = .ok ((), off + 8 + ce.bytes.length) by unfold setOffset; rw [if_pos (by omega)]]
    simp only [Res.bind_ok, Res.pure_eq]
    rw [hnext, Nat.add_assoc]; rfl
  · intro o c hl
    cases hlk : cies.lookup off with
    | some c' => rw [hlk] at hl; exact hs o c hl
    | none =>
      rw [hlk] at hl
      simp only [List.lookup] at hl
      split at hl
      · rename_i hb
        have : o = off := by simpa using hb
        simp only [Option.some.injEq] at hl
        exact ⟨i, ce, hi, by rw [hoff, this], by rw [← hl, this]⟩
      · exact hs o c hl
  · cases hlk : cies.lookup off with
    | some c' =>
      dsimp only
      rw [hlk]
      subst hoff
      rw [hs.at hi hlk]
    | none => simp

theorem put_fde (fuel : Nat) (cies : CIEs) (hs : SoundCIEs es cies) (i : Nat) (f : FdeEnc) (hi : es[i]? = some (.fde f)) :
    ∃ cies' fde, putFDEorCIE (frameSection kind es ++ tail) kind.type sa (fuel + 2) cies (offsetOf es i) =
        (cies', .ok (.fde fde, offsetOf es (i + 1))) ∧ SoundCIEs es cies' ∧ fdeMeaning es sa i = some fde := by
  obtain ⟨hlt, he⟩ := List.getElem?_eq_some_iff.1 hi
  obtain ⟨hk, ce, hce, hfw⟩ := hwf.2.2 i f hi
  have hmem : Entry.fde f ∈ es := he ▸ List.getElem_mem hlt
  have hle := rec_le kind es hwf tail hw i hlt
  have hdrop := section_drop kind es tail i hlt
  have hnext := offsetOf_succ es i hlt
  have hsz := hwf.1 _ hmem
  obtain ⟨hclt, -⟩ := cieAt_lt hce
  have hcle := rec_le kind es hwf tail hw f.cie hclt
  have hcpos : 8 ≤ es[f.cie].size es := by unfold Entry.size; omega
  have hput := put_cie kind es hwf tail sa hw
  rw [he] at hle hdrop hnext
  generalize (frameSection kind es ++ tail) = d at *
  have hbody : (Entry.fde f).body es = f.bytes ce := by simp only [Entry.body, hce]
  have hsize : (Entry.fde f).size es = 8 + (f.bytes ce).length := by simp only [Entry.size, hbody]
  rw [hbody] at hsz
  rw [hsize] at hle hnext
  simp only [Entry.record, List.append_assoc, hbody] at hdrop
  generalize hoff : offsetOf es i = off at *
  generalize hco : offsetOf es f.cie = co at *
  have hid : (Entry.fde f).id kind es off < 2 ^ 32 := by
    cases kind <;> simp only [Entry.id, hco] <;> simp only at hk <;> omega
  have hh := decodeHdr_spec d _ kind.type off (f.bytes ce).length _ hsz hid hw (by omega) hdrop
  have hnc : isCIE kind.type (BitVec.ofNat 64 ((Entry.fde f).id kind es off)) = false := by
    cases kind with
    | debugFrame =>
      simp only [Entry.id, hco]
      simp only [] at hk
      simp only [FrameKind.type, isCIE, beq_eq_false_iff_ne, BitVec.toNat_ofNat]
      omega
    | ehFrame =>
      simp only [Entry.id, hco]
      have : co < off := by rw [← hco, ← hoff]; exact offsetOf_lt es _ _ hk.1 (by omega)
      simp only [FrameKind.type, isCIE, beq_eq_false_iff_ne, ne_eq]
      intro hz
      have := congrArg BitVec.toNat hz
      simp at this; omega
  rw [hnc] at hh
  have hassoc : (match kind.type with
      | FIType.ehFrame => (off + 4 + W64 - (Entry.fde f).id kind es off) % W64
      | FIType.debugFrame => (Entry.fde f).id kind es off) = co := by
    cases kind with
    | debugFrame => simp only [FrameKind.type, Entry.id, hco]
    | ehFrame =>
      have : co < off := by rw [← hco, ← hoff]; exact offsetOf_lt es _ _ hk.1 (by omega)
      simp only [FrameKind.type, Entry.id, hco]
      rw [show off + 4 + W64 - (off + 4 - co) = co + W64 by omega, Nat.add_mod_right]
      exact Nat.mod_eq_of_lt (by omega)
  simp only [Bool.false_eq_true, if_false, hassoc] at hh
  have h1 := drop_prefix hdrop
  have h2 := drop_prefix h1
  rw [leBytes_length, leBytes_length] at h2
  have h3 : d.drop (off + 8) = f.head ce ++ (f.insns ++ (emit kind es (offsetOf es (i + 1)) (es.drop (i + 1)) ++ tail)) := by
    rw [show off + 8 = off + 4 + 4 by omega, h2]; simp [FdeEnc.bytes]
  have hp := parseFDE_spec d _ sa (off + 8) (off + 8 + (f.bytes ce).length) co ce f hfw (by omega) hw h3
  have hsub : off + 8 - 8 = off := by omega
  have hm : ({ f.meaning ce sa (off + 8 - 8) co with endOff := off + 8 + (f.bytes ce).length } : FDE) = f.meaning ce sa off co := by
    rw [hsub]; rfl
  rw [hm] at hp
  have hPF : ∀ cies' : CIEs, cies'.lookup co = some (ce.meaning co) →
      putFDE d sa co (off + 8 + (f.bytes ce).length) (off + 8) cies' =
        .ok (.fde (f.meaning ce sa off co), offsetOf es (i + 1)) := by
    intro cies' hl
    unfold putFDE
    rw [hl]
    dsimp only
    rw [hp, Res.bind_ok]
    dsimp only
    rw [show setOffset d.length (off + 8 + (f.bytes ce).length) (off + 8 + (f.head ce).length)
      = .ok ((), off + 8 + (f.bytes ce).length) by unfold setOffset; rw [if_pos (by omega)]]
    simp only [Res.bind_ok, Res.pure_eq]
    rw [hnext, Nat.add_assoc]
  have hmean : fdeMeaning es sa i = some (f.meaning ce sa off co) := by
    simp only [fdeMeaning, hi, hce, Option.map_some, hoff, hco]
  cases hlk : cies.lookup co with
  | some c =>
    have hc : c = ce.meaning co := by
      subst hco; exact hs.at hce hlk
    refine ⟨cies, f.meaning ce sa off co, ?_, hs, hmean⟩
    rw [putFDEorCIE, hh]
    dsimp only
    rw [if_neg (by omega), if_neg (by simp only [Option.getD_some]; omega)]
    simp only [Option.getD_some, hlk]
    rw [hPF cies (by rw [hlk, hc])]
  | none =>
    obtain ⟨cies', g1, g2, g3⟩ := hput fuel cies hs f.cie ce hce
    rw [hco] at g1 g3
    refine ⟨cies', f.meaning ce sa off co, ?_, g2, hmean⟩
    rw [putFDEorCIE, hh]
    dsimp only
    rw [if_neg (by omega), if_neg (by simp only [Option.getD_some]; omega)]
    simp only [Option.getD_some, hlk, g1]
    rw [hPF cies' g3]

end

/-! ### the walk -/

theorem stop_tail (d : List Byte) (type : FIType) (sa fuel off : Nat) (cies : CIEs) (rest : List Byte)
    (h : d.drop off = leBytes 4 0 ++ rest) :
    putFDEorCIE d type sa (fuel + 1) cies off = (cies, .ok (.stop, off + 4)) := by
  have hh : decodeHdr d type off = .ok (none, off + 4) := by
    unfold decodeHdr
    rw [Parse.bind_ok (getlength_32 d rest 0 off (by decide) h)]
    rfl
  rw [putFDEorCIE, hh]

theorem walk_spec (kind : FrameKind) (es : List Entry) (hwf : WFEntries kind es) (tail : List Byte) (sa : Nat)
    (hw : (frameSection kind es ++ tail).length < W64) (htail : tail = [] ∨ ∃ r, tail = leBytes 4 0 ++ r) :
    ∀ (k i n : Nat) (cies : CIEs), k = es.length - i → i ≤ es.length → SoundCIEs es cies → es.length - i < n →
      walk (frameSection kind es ++ tail) kind.type sa n cies (offsetOf es i) =
        .ok ((List.range' i k).filterMap (fdeMeaning es sa)) := by
  intro k
  induction k with
  | zero =>
    intro i n cies hk hi hs hn
    have hi' : i = es.length := by omega
    subst hi'
    cases n with
    | zero => omega
    | succ n =>
      rw [walk]
      rcases htail with h | ⟨r, h⟩
      · subst h
        rw [List.append_nil, section_length, if_pos rfl]; rfl
      · subst h
        have hd : (frameSection kind es ++ (leBytes 4 0 ++ r)).drop (offsetOf es es.length) = leBytes 4 0 ++ r := by
          rw [← section_length kind es, List.drop_left]
        rw [if_neg (by rw [List.length_append, section_length, List.length_append, leBytes_length]; omega)]
        rw [stop_tail _ _ _ _ _ _ r hd]; rfl
  | succ k ih =>
    intro i n cies hk hi hs hn
    have hlt : i < es.length := by omega
    cases n with
    | zero => omega
    | succ n =>
      have hne : offsetOf es i ≠ (frameSection kind es ++ tail).length := by
        have h1 := rec_le kind es hwf tail hw i hlt
        have h2 : 8 ≤ es[i].size es := by unfold Entry.size; omega
        omega
      rw [walk, if_neg hne, List.range'_succ]
      cases he : es[i] with
      | cie ce =>
        have hce : cieAt es i = some ce := by
          unfold cieAt; rw [List.getElem?_eq_getElem hlt, he]
        obtain ⟨cies', g1, g2, -⟩ := put_cie kind es hwf tail sa hw _ cies hs i ce hce
        rw [g1]
        dsimp only
        rw [ih (i + 1) n cies' (by omega) (by omega) g2 (by omega)]
        have : fdeMeaning es sa i = none := by
          unfold fdeMeaning; rw [List.getElem?_eq_getElem hlt, he]
        rw [List.filterMap_cons_none this]
      | fde f =>
        obtain ⟨cies', fde, g1, g2, g3⟩ := put_fde kind es hwf tail sa hw _ cies hs i f
          (by rw [List.getElem?_eq_getElem hlt, he])
        rw [g1]
        dsimp only
        rw [ih (i + 1) n cies' (by omega) (by omega) g2 (by omega), Res.bind_ok, List.filterMap_cons_some g3]
        rfl

theorem eagerFDEs_spec (kind : FrameKind) (es : List Entry) (hwf : WFEntries kind es) (tail : List Byte) (sa : Nat)
    (hw : (frameSection kind es ++ tail).length < W64) (htail : tail = [] ∨ ∃ r, tail = leBytes 4 0 ++ r) :
    eagerFDEs (frameSection kind es ++ tail) kind.type sa = .ok (sortFDEs (fdesOf es sa)) := by
  have hlen : es.length ≤ (frameSection kind es ++ tail).length := by
    have : ∀ n, n ≤ es.length → n ≤ offsetOf es n := by
      intro n
      induction n with
      | zero => intro _; omega
      | succ n ih =>
        intro hn
        have := offsetOf_lt es n (n + 1) (by omega) hn
        have := ih (by omega)
        omega
    have := this es.length (Nat.le_refl _)
    rw [List.length_append, section_length]; omega
  have h0 : SoundCIEs es [] := by intro o c h; simp at h
  have := walk_spec kind es hwf tail sa hw htail es.length 0 ((frameSection kind es ++ tail).length + 1) [] (by omega) (by omega) h0 (by omega)
  unfold eagerFDEs
  rw [show offsetOf es 0 = 0 by simp [offsetOf]] at this
  rw [this, Res.bind_ok]
  simp only [fdesOf, List.range_eq_range', Res.pure_eq]

theorem sortFDEs_perm (l : List FDE) : (sortFDEs l).Perm l := List.mergeSort_perm _ _

theorem sortFDEs_sorted (l : List FDE) : (sortFDEs l).Pairwise (fun a b => a.iloc.toNat ≤ b.iloc.toNat) := by
  have := List.pairwise_mergeSort (le := fun a b : FDE => decide (a.iloc.toNat ≤ b.iloc.toNat))
    (by intro a b c h1 h2; simp at *; omega) (by intro a b; simp; omega) l
  exact this.imp (by intro a b h; simpa using h)

/-! ### the search table -/

theorem encode_width (f : PtrFmt) (v : Int) (h : f.width ≠ 0) : (f.encode v).length = f.width := by
  cases f <;> simp [PtrFmt.width, PtrFmt.encode, leBytes_length] at *

theorem tableBytes_drop (f : PtrFmt) (hf : f.width ≠ 0) (base : Nat) (rows : List (Nat × Nat)) : ∀ (i : Nat) (hi : i < rows.length),
    ∃ rest, (tableBytes f base rows).drop (f.width * 2 * i) =
      f.encode ((rows[i].1 : Int) - base) ++ (f.encode ((rows[i].2 : Int) - base) ++ rest) := by
  induction rows with
  | nil => intro i hi; simp at hi
  | cons r rows ih =>
    intro i hi
    cases i with
    | zero => exact ⟨tableBytes f base rows, by simp [tableBytes]⟩
    | succ i =>
      obtain ⟨rest, h⟩ := ih i (by simpa using hi)
      refine ⟨rest, ?_⟩
      have hl : (f.encode ((r.1 : Int) - base) ++ f.encode ((r.2 : Int) - base)).length = f.width * 2 := by
        rw [List.length_append, encode_width _ _ hf, encode_width _ _ hf]; omega
      have : tableBytes f base (r :: rows) =
          (f.encode ((r.1 : Int) - base) ++ f.encode ((r.2 : Int) - base)) ++ tableBytes f base rows := by
        simp [tableBytes]
      rw [this, show f.width * 2 * (i + 1) =
        (f.encode ((r.1 : Int) - base) ++ f.encode ((r.2 : Int) - base)).length + f.width * 2 * i by
          rw [hl, Nat.mul_succ]; omega]
      rw [← List.drop_drop, List.drop_left, h]; rfl

theorem ofInt_sub_base (a b : Nat) : BitVec.ofInt 64 ((a : Int) - b) + BitVec.ofNat 64 b = BitVec.ofNat 64 a := by
  rw [← BitVec.ofInt_natCast, ← BitVec.ofInt_add, Int.sub_add_cancel, BitVec.ofInt_natCast]

theorem sizeForEncoding_spec (f : PtrFmt) (b : PtrBase) : sizeForEncoding (ptrEnc f b false) = f.width := by
  cases f <;> cases b <;> decide

/-- The table rows for a list of record indices. -/
def rowsOf (es : List Entry) (sa : Nat) (order : List Nat) (fs : List FDE) : List (Nat × Nat) :=
  List.zipWith (fun i (f : FDE) => (f.iloc.toNat, sa + offsetOf es i)) order fs

theorem loadEntry_spec (es : List Entry) (hwf : WFEntries .ehFrame es) (tail : List Byte) (sa hdrAddr : Nat)
    (hw : (frameSection .ehFrame es ++ tail).length < W64) (fs : List FDE) (order : List Nat)
    (hord : order.map (fdeMeaning es sa) = fs.map some)
    (tab : List Byte) (tf : PtrFmt) (tb : PtrBase) (htw : tf.width ≠ 0) (htb : tb ≠ .pcrel)
    (htl : tab.length < W64)
    (hfit : ∀ r ∈ rowsOf es sa order fs, tf.Fits ((r.1 : Int) - tb.value 0 hdrAddr hdrAddr) ∧
      tf.Fits ((r.2 : Int) - tb.value 0 hdrAddr hdrAddr))
    (htab : ∃ pad, tab = tableBytes tf (tb.value 0 hdrAddr hdrAddr) (rowsOf es sa order fs) ++ pad) :
    Loads (SoundCIEs es) (loadEntry (frameSection .ehFrame es ++ tail) sa ⟨tab, ptrEnc tf tb false, hdrAddr⟩) fs := by
  intro cies hs i hi
  have hlen : order.length = fs.length := by simpa using congrArg List.length hord
  have hoi : i < order.length := by omega
  have hrl : i < (rowsOf es sa order fs).length := by
    simp only [rowsOf, List.length_zipWith]; omega
  have hri : (rowsOf es sa order fs)[i] = (fs[i].iloc.toNat, sa + offsetOf es order[i]) := by
    simp only [rowsOf, List.getElem_zipWith]
  have hmean : fdeMeaning es sa order[i] = some fs[i] := by
    have := congrArg (fun l => l[i]?) hord
    simp only [List.getElem?_map, List.getElem?_eq_getElem hoi, List.getElem?_eq_getElem hi, Option.map_some,
      Option.some.injEq] at this
    exact this
  obtain ⟨pad, htab⟩ := htab
  obtain ⟨rest, hdrop⟩ := tableBytes_drop tf htw (tb.value 0 hdrAddr hdrAddr) (rowsOf es sa order fs) i hrl
  have hdrop' : tab.drop (tf.width * 2 * i) =
      tf.encode (((rowsOf es sa order fs)[i].1 : Int) - tb.value 0 hdrAddr hdrAddr) ++
      (tf.encode (((rowsOf es sa order fs)[i].2 : Int) - tb.value 0 hdrAddr hdrAddr) ++ (rest ++ pad)) := by
    have hle : tf.width * 2 * i ≤ (tableBytes tf (tb.value 0 hdrAddr hdrAddr) (rowsOf es sa order fs)).length := by
      apply Nat.le_of_lt
      refine Nat.lt_of_not_le fun hc => ?_
      rw [List.drop_of_length_le hc] at hdrop
      have := congrArg List.length hdrop
      simp [encode_width _ _ htw] at this
      omega
    rw [htab, List.drop_append_of_le_length hle, hdrop]; simp
  rw [hri] at hdrop'
  have hf := hfit _ (List.getElem_mem hrl)
  rw [hri] at hf
  have hval : ∀ x, tb.value x hdrAddr hdrAddr = tb.value 0 hdrAddr hdrAddr := by
    intro x; cases tb <;> first | rfl | exact absurd rfl htb
  have g1 := decodeAddress_spec tab _ _ sa hdrAddr tf tb false _ hf.1 htl hdrop'
  have h2 := drop_prefix hdrop'
  have g2 := decodeAddress_spec tab _ _ sa hdrAddr tf tb false _ hf.2 htl h2
  rw [hval (_ + sa)] at g1 g2
  dsimp only at g1 g2
  rw [ofInt_sub_base] at g1 g2
  have he : fs[i].iloc = BitVec.ofNat 64 fs[i].iloc.toNat := by simp
  rw [← he] at g1
  -- the record
  have hrec : ∃ f, es[order[i]]? = some (.fde f) := by
    unfold fdeMeaning at hmean
    split at hmean
    · rename_i f hf'; exact ⟨f, hf'⟩
    · simp at hmean
  obtain ⟨f, hf'⟩ := hrec
  obtain ⟨hlt, hee⟩ := List.getElem?_eq_some_iff.1 hf'
  have hole := rec_le .ehFrame es hwf tail hw order[i] hlt
  obtain ⟨cies', fde, p1, p2, p3⟩ := put_fde .ehFrame es hwf tail sa hw (frameSection .ehFrame es ++ tail).length cies hs
    order[i] f hf'
  have hfde : fde = fs[i] := by
    rw [hmean] at p3; simpa using p3.symm
  subst hfde
  have hoff : (BitVec.ofNat 64 (sa + offsetOf es order[i]) - BitVec.ofNat 64 sa).toNat = offsetOf es order[i] := by
    rw [BitVec.ofNat_add, BitVec.add_comm, BitVec.add_sub_cancel, BitVec.toNat_ofNat]
    apply Nat.mod_eq_of_lt
    rw [← W64_eq]; omega
  have hl : loadEntry (frameSection .ehFrame es ++ tail) sa ⟨tab, ptrEnc tf tb false, hdrAddr⟩ cies i =
      (cies', .ok fs[i]) := by
    unfold loadEntry
    simp only [sizeForEncoding_spec]
    unfold ptrEnc
    rw [Parse.bind_ok g1, Parse.bind_ok g2, Parse.pure_apply]
    dsimp only
    rw [hoff]
    have p1' : putFDEorCIE (frameSection .ehFrame es ++ tail) .ehFrame sa ((frameSection .ehFrame es ++ tail).length + 2)
      cies (offsetOf es order[i]) = (cies', .ok (.fde fs[i], offsetOf es (order[i] + 1))) := p1
    rw [p1']
    simp
  rw [hl]
  exact ⟨p2, rfl⟩

theorem openHdr_spec (h : HdrEnc) (sa hdrAddr : Nat) (rows : List (Nat × Nat)) (hwf : h.WF hdrAddr rows) (pad : List Byte)
    (hl : (h.bytes hdrAddr rows ++ pad).length < W64) :
    ∃ off, openHdr (h.bytes hdrAddr rows ++ pad) sa hdrAddr 0 = .ok (some (rows.length,
      ⟨tableBytes h.tabFmt (h.tabBase.value 0 hdrAddr hdrAddr) rows ++ pad, ptrEnc h.tabFmt h.tabBase false, hdrAddr⟩), off) := by
  obtain ⟨w1, w2, w3, w4, w5⟩ := hwf
  have hd0 : (h.bytes hdrAddr rows ++ pad).drop 0 = h.version :: ptrEnc h.ptrFmt h.ptrBase false ::
    ptrEnc h.cntFmt .abs false :: ptrEnc h.tabFmt h.tabBase false :: (h.ptrFmt.encode h.ptr ++ (h.cntFmt.encode rows.length ++
      (tableBytes h.tabFmt (h.tabBase.value 0 hdrAddr hdrAddr) rows ++ pad))) := by
    simp [HdrEnc.bytes]
  have hnat : rows.length < 2 ^ 64 := by
    have := w2
    cases hc : h.cntFmt <;> rw [hc] at this <;> simp only [PtrFmt.Fits] at this <;> omega
  generalize (h.bytes hdrAddr rows ++ pad) = d at *
  unfold openHdr
  have h1 := drop_prefix (bs := [_]) hd0
  have h2 := drop_prefix (bs := [_]) h1
  have h3 := drop_prefix (bs := [_]) h2
  have h4 := drop_prefix (bs := [_]) h3
  rw [Parse.bind_ok (getu8_prefix d _ _ _ hd0), Parse.bind_ok (getu8_prefix d _ _ (0 + 1) h1),
    Parse.bind_ok (getu8_prefix d _ _ (0 + 1 + 1) h2), Parse.bind_ok (getu8_prefix d _ _ (0 + 1 + 1 + 1) h3)]
  rw [sizeForEncoding_spec, if_neg w3]
  have g1 := decodeAddress_spec d _ _ sa hdrAddr h.ptrFmt h.ptrBase false _ w1 hl h4
  have h5 := drop_prefix h4
  have g2 := decodeAddress_spec d _ _ sa 0 h.cntFmt .abs false _ w2 hl h5
  have h6 := drop_prefix h5
  rw [Parse.bind_ok (show decodeAddress d sa (ptrEnc h.ptrFmt h.ptrBase false) hdrAddr (0 + 1 + 1 + 1 + 1) = _ from g1)]
  rw [Parse.bind_ok (show decodeAddress d sa (ptrEnc h.cntFmt .abs false) 0 _ = _ from g2)]
  dsimp only
  rw [Parse.bind_ok (show getOffset _ = .ok (_, _) from rfl)]
  rw [Parse.pure_apply]
  have hn : (BitVec.ofInt 64 (rows.length : Int) + BitVec.ofNat 64 (PtrBase.value
      (0 + [h.version].length + [ptrEnc h.ptrFmt h.ptrBase false].length + [ptrEnc h.cntFmt PtrBase.abs false].length +
            [ptrEnc h.tabFmt h.tabBase false].length + (h.ptrFmt.encode h.ptr).length + sa) 0 0 .abs)).toNat = rows.length := by
    simp only [PtrBase.value, BitVec.ofInt_natCast]
    simp; omega
  rw [hn]
  simp only [List.length_singleton] at h6 ⊢
  rw [h6]
  exact ⟨_, rfl⟩

end Pstack.Dwarf
