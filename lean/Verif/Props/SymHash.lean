import Verif.Proof.SymHash
/-
C31: lookup of dynamic symbols by name through either hash table.
-/
namespace Pstack.Props
open Pstack.Reader Pstack.Elf Pstack.Spec Pstack.Dwarf

/-- The answer is exact: `i` is the index of a symbol of the set with the name, or it is 0, with the null symbol, and the set has
no symbol of that name. -/
def Exact (t : DynTable) (inTable : Nat → Prop) (name : List Byte) (r : Nat × Sym) : Prop :=
  (∃ i s, r = (i, s) ∧ i ≠ 0 ∧ inTable i ∧ t.syms[i]? = some s ∧ t.nameOf s = name) ∨
  (r = (0, undefSym) ∧ ∀ i s, inTable i → t.syms[i]? = some s → t.nameOf s ≠ name)

/-! ### The ELF hash table -/

/-- C31. Lookup through a well-formed DT_HASH section is exact for names of 7-bit characters. -/
theorem C31_sysv_lookup_partial (t : DynTable) (h : SysvTable) (entered : Nat → Prop) (hg : h.Good t entered)
    (hash symtab strtab : Rdr) (hw : hash.WF) (hb : hash.content = h.bytes) (hin : t.In symtab strtab)
    (name : List Byte) (hascii : ∀ b ∈ name, b.toNat < 128) :
    ∃ x r, SymHash.make hash symtab strtab = .ok x ∧ x.findSymbol name = .ok r ∧ Exact t entered name r := by
  obtain ⟨h1, h2, h3, h4, h5, h6⟩ := hg
  have hws : ∀ w ∈ h.buckets.length :: h.chain.length :: (h.buckets ++ h.chain), w < 2 ^ 32 := by
    intro w hw
    rcases List.mem_cons.1 hw with rfl | hw
    · exact h3
    · rcases List.mem_cons.1 hw with rfl | hw
      · exact h4
      · exact h5 w hw
  have hsz : hash.size = 4 * (h.buckets.length :: h.chain.length :: (h.buckets ++ h.chain)).length := by
    rw [← (content_length hash hw).1, hb]
    exact array_length 4 _
  have hne : h.bytes ≠ [] := by
    intro hc
    rw [← (content_length hash hw).1, hb, hc] at hsz
    simp at hsz
  have hmk : SymHash.make hash symtab strtab =
      .ok ⟨symtab, strtab, h.buckets.length :: h.chain.length :: (h.buckets ++ h.chain), h.buckets.length, h.chain.length⟩ := by
    unfold SymHash.make
    have e : hash.size / 4 * 4 = h.bytes.length := by
      rw [← hb, (content_length hash hw).1, hsz]; omega
    have hro := readObj_at hash hw 0 h.bytes [] (by rw [List.drop_zero, hb, List.append_nil]) hne
    rw [e, hro, Res.bind_ok]
    have : words h.bytes = h.buckets.length :: h.chain.length :: (h.buckets ++ h.chain) := words_array _ hws
    rw [this]
    rfl
  have hfind : ∃ r, (SymHash.mk symtab strtab (h.buckets.length :: h.chain.length :: (h.buckets ++ h.chain)) h.buckets.length
      h.chain.length).findSymbol name = .ok r ∧ Exact t entered name r := by
    unfold SymHash.findSymbol
    simp only
    rw [if_neg (by omega), elfHash_ascii name hascii]
    have hbl : sysvHash name % h.buckets.length < h.buckets.length := Nat.mod_lt _ h1
    have hi := List.getElem?_eq_getElem hbl
    generalize h.buckets[sysvHash name % h.buckets.length] = i at hi
    have hd : (h.buckets.length :: h.chain.length :: (h.buckets ++ h.chain))[2 + sysvHash name % h.buckets.length]? = some i := by
      rw [show 2 + sysvHash name % h.buckets.length = sysvHash name % h.buckets.length + 1 + 1 from by omega,
        List.getElem?_cons_succ, List.getElem?_cons_succ, List.getElem?_append_left hbl, hi]
    rw [hd]
    simp only
    obtain ⟨is, hch, hmem⟩ := h6 _ i hi
    have hlen : is.length ≤ h.chain.length := nodup_bound _ is hch.nodup (fun k hk => (hch.lt k hk).1)
    rcases SymHash_walk t h (SymHash.mk symtab strtab (h.buckets.length :: h.chain.length :: (h.buckets ++ h.chain))
        h.buckets.length h.chain.length) rfl rfl hin h2 name hch ((h.buckets.length :: h.chain.length :: (h.buckets ++ h.chain)).length + 1)
        (by simp only [List.length_cons, List.length_append]; omega)
      with ⟨g1, g2⟩ | ⟨k, s, g1, g2, g3, g4⟩
    · refine ⟨_, g1, .inr ⟨rfl, ?_⟩⟩
      intro k s hk hs hn
      have : k ∈ is := (hmem k).2 ⟨hk, s, hs, by rw [hn]⟩
      exact g2 k this s hs hn
    · exact ⟨_, g4, .inl ⟨k, s, rfl, (hch.lt k g1).2, ((hmem k).1 g1).1, g2, g3⟩⟩
  obtain ⟨r, hr1, hr2⟩ := hfind
  exact ⟨_, r, hmk, hr1, hr2⟩

/-- C31 fails for names with other characters: `elf_hash` sign-extends them, so it differs from the hash of the ABI, already
for the one-character name 0xe9. -/
theorem C31_not_abi_hash : (elfHash [0xe9#8]).toNat ≠ sysvHash [0xe9#8] := by decide +kernel

/-! ### The GNU hash table -/

/-- The model's header fields and the section are those of the table. -/
structure Opened (g : GnuTable) (x : GnuHash) : Prop where
  wf : x.hash.WF
  bytes : x.hash.content = g.bytes
  nbuckets : x.nbuckets = g.buckets.length
  symoffset : x.symoffset = g.symoffset
  bloomSize : x.bloomSize = g.bloom.length
  bloomShift : x.bloomShift = g.shift

theorem header_length (g : GnuTable) :
    (([g.buckets.length, g.symoffset, g.bloom.length, g.shift].map (leBytes 4)).flatten).length = 16 := by
  rw [array_length]; rfl

theorem GnuTable_bloom_at (g : GnuTable) (k w : Nat) (h : g.bloom[k]? = some w) :
    ∃ rest, g.bytes.drop (16 + 8 * k) = leBytes 8 w ++ rest := by
  obtain ⟨r, hr⟩ := drop_array 8 g.bloom k w h
  refine ⟨r ++ ((g.buckets.map (leBytes 4)).flatten ++ (g.chain.map (leBytes 4)).flatten), ?_⟩
  have hk := (List.getElem?_eq_some_iff.1 h).1
  unfold GnuTable.bytes
  rw [List.append_assoc, List.append_assoc, ← List.drop_drop, List.drop_left' (header_length g),
    List.drop_append_of_le_length (by rw [array_length]; omega), hr, List.append_assoc]

theorem GnuTable_bucket_at (g : GnuTable) (k w : Nat) (h : g.buckets[k]? = some w) :
    ∃ rest, g.bytes.drop (16 + 8 * g.bloom.length + 4 * k) = leBytes 4 w ++ rest := by
  obtain ⟨r, hr⟩ := drop_array 4 g.buckets k w h
  refine ⟨r ++ (g.chain.map (leBytes 4)).flatten, ?_⟩
  have hk := (List.getElem?_eq_some_iff.1 h).1
  unfold GnuTable.bytes
  rw [List.append_assoc, ← List.drop_drop, List.drop_left' (by rw [List.length_append, header_length, array_length]),
    List.drop_append_of_le_length (by rw [array_length]; omega), hr, List.append_assoc]

theorem GnuTable_chain_at (g : GnuTable) (k w : Nat) (h : g.chain[k]? = some w) :
    ∃ rest, g.bytes.drop (16 + 8 * g.bloom.length + 4 * g.buckets.length + 4 * k) = leBytes 4 w ++ rest := by
  obtain ⟨r, hr⟩ := drop_array 4 g.chain k w h
  refine ⟨r, ?_⟩
  unfold GnuTable.bytes
  rw [← List.drop_drop, List.drop_left' (by rw [List.length_append, List.length_append, header_length, array_length, array_length]), hr]

/-- The chain walk is exact, started at any symbol of the name's bucket with no earlier symbol of that name. -/
theorem gnu_walk (g : GnuTable) (t : DynTable) (hg : g.Good t) (x : GnuHash) (ho : Opened g x) (hin : t.In x.syms x.strings)
    (name : List Byte) (n : Nat) : ∀ idx s fuel, t.syms.length - idx = n → n < fuel → g.symoffset ≤ idx → t.syms[idx]? = some s →
    g.bucketOf (t.nameOf s) = g.bucketOf name →
    (∀ j u, g.symoffset ≤ j → j < idx → t.syms[j]? = some u → t.nameOf u ≠ name) →
    ∃ r, x.walk name (gnuHash name) fuel idx = .ok r ∧
      ((∃ i s, r = (i, s) ∧ g.symoffset ≤ i ∧ t.syms[i]? = some s ∧ t.nameOf s = name ∧
          ∀ j u, g.symoffset ≤ j → j < i → t.syms[j]? = some u → t.nameOf u ≠ name) ∨
       (r = (0, undefSym) ∧ ∀ i s, g.symoffset ≤ i → t.syms[i]? = some s → t.nameOf s ≠ name)) := by
  induction n with
  | zero =>
    intro idx s fuel hn _ _ hs
    have := (List.getElem?_eq_some_iff.1 hs).1
    omega
  | succ n ih =>
    intro idx s fuel hn hfuel hlo hs hbk hearlier
    obtain ⟨f, rfl⟩ : ∃ f, fuel = f + 1 := ⟨fuel - 1, by omega⟩
    have hidx := (List.getElem?_eq_some_iff.1 hs).1
    have hclt := hg.count_lt
    have hslt := hg.size_lt
    obtain ⟨w, hw1, hw2, hw3⟩ := hg.words idx s hlo hs
    have hwk := (List.getElem?_eq_some_iff.1 hw1).1
    obtain ⟨rest, hrest⟩ := GnuTable_chain_at g _ w hw1
    have hwlt : w < 2 ^ 32 := by
      have hh : djbHash (t.nameOf s) < 2 ^ 32 := by rw [← gnuHash_eq]; exact (gnuHash _).isLt
      omega
    have hoff : x.chainoff (idx - x.symoffset) = 16 + 8 * g.bloom.length + 4 * g.buckets.length + 4 * (idx - g.symoffset) := by
      unfold GnuHash.chainoff GnuHash.bucketoff GnuHash.bloomoff
      rw [ho.nbuckets, ho.symoffset, ho.bloomSize]
      omega
    have hchain : readN x.hash (x.chainoff (idx - x.symoffset)) 4 = .ok w := by
      rw [hoff]
      exact readN_at x.hash ho.wf _ 4 w rest (by rw [ho.bytes]; exact hrest) (by decide) hwlt
    have hnm := hin.2 s (List.mem_of_getElem? hs)
    have hunf : x.walk name (gnuHash name) (f + 1) idx = if t.nameOf s = name then .ok (idx, s)
        else if w % 2 ≠ 0 then .ok (0, undefSym) else x.walk name (gnuHash name) f ((idx + 1) % 2 ^ 32) := by
      rw [GnuHash.walk, readSym_at _ _ hin.1 idx s hs, Res.bind_ok, hchain, Res.bind_ok]
      have hcmp : (BitVec.ofNat 32 w ||| 1#32) = (gnuHash name ||| 1#32) ↔ djbHash (t.nameOf s) / 2 = djbHash name / 2 := by
        rw [or_one_iff, gnuHash_eq, BitVec.toNat_ofNat, Nat.mod_eq_of_lt hwlt, hw2]
      by_cases hq : t.nameOf s = name
      · rw [if_pos (hcmp.2 (by rw [hq])), hnm, if_pos hq]
        simp only [Res.bind_ok, Res.pure_eq, hq, beq_self_eq_true, if_true]
      · rw [if_neg hq]
        by_cases hc : (BitVec.ofNat 32 w ||| 1#32) = (gnuHash name ||| 1#32)
        · rw [if_pos hc, hnm]
          have : (t.nameOf s == name) = false := by simp [hq]
          simp only [Res.bind_ok, Res.pure_eq, this]
          rfl
        · rw [if_neg hc]
          simp only [Res.bind_ok, Res.pure_eq]
          rfl
    rw [hunf]
    by_cases hq : t.nameOf s = name
    · rw [if_pos hq]
      exact ⟨_, rfl, .inl ⟨idx, s, rfl, hlo, hs, hq, hearlier⟩⟩
    · rw [if_neg hq]
      have hearlier' : ∀ j u, g.symoffset ≤ j → j < idx + 1 → t.syms[j]? = some u → t.nameOf u ≠ name := by
        intro j u h1 h2 h3
        by_cases hj : j = idx
        · subst hj; rw [hs] at h3; simp only [Option.some.injEq] at h3; rw [← h3]; exact hq
        · exact hearlier j u h1 (by omega) h3
      by_cases hend : w % 2 ≠ 0
      · rw [if_pos hend]
        refine ⟨_, rfl, .inr ⟨rfl, ?_⟩⟩
        intro j u h1 h2 hc
        by_cases hj : j < idx + 1
        · exact hearlier' j u h1 hj h2 hc
        · have hjl := (List.getElem?_eq_some_iff.1 h2).1
          have hv := List.getElem?_eq_getElem (show idx + 1 < t.syms.length by omega)
          generalize t.syms[idx + 1] = v at hv
          have hne := (hw3.1 (by omega)) v hv
          have hle := hg.sorted idx (idx + 1) s v hlo (by omega) hs hv
          have hle2 : g.bucketOf (t.nameOf v) ≤ g.bucketOf (t.nameOf u) := by
            by_cases hj' : j = idx + 1
            · subst hj'; rw [hv] at h2; simp only [Option.some.injEq] at h2; rw [h2]; exact Nat.le_refl _
            · exact hg.sorted (idx + 1) j v u (by omega) (by omega) hv h2
          rw [hc] at hle2
          omega
      · rw [if_neg hend]
        have hnot : ¬ ∀ u, t.syms[idx + 1]? = some u → g.bucketOf (t.nameOf u) ≠ g.bucketOf (t.nameOf s) := by
          intro hc; have := hw3.2 hc; omega
        cases hv : t.syms[idx + 1]? with
        | none => exact absurd (fun u hu => by rw [hv] at hu; cases hu) hnot
        | some v =>
          have hbv : g.bucketOf (t.nameOf v) = g.bucketOf name := by
            rw [← hbk]
            by_cases hc : g.bucketOf (t.nameOf v) = g.bucketOf (t.nameOf s)
            · exact hc
            · refine absurd (fun u hu => ?_) hnot
              rw [hv] at hu; simp only [Option.some.injEq] at hu; rw [← hu]; exact hc
          have hvl := (List.getElem?_eq_some_iff.1 hv).1
          rw [Nat.mod_eq_of_lt (show idx + 1 < 2 ^ 32 by omega)]
          exact ih (idx + 1) v f (by omega) (by omega) (by omega) hv hbv hearlier'

theorem bloom_bits (w : Nat) (a b : Nat) (ha : a < 64) (hb : b < 64) :
    BitVec.ofNat 64 w &&& ((1#64 <<< a) ||| (1#64 <<< b)) = ((1#64 <<< a) ||| (1#64 <<< b)) ↔ w.testBit a = true ∧ w.testBit b = true := by
  have bit : ∀ i, (BitVec.ofNat 64 w).getLsbD i = (decide (i < 64) && w.testBit i) := by
    intro i; rw [BitVec.getLsbD_ofNat]
  have one : ∀ i k, (1#64 <<< k).getLsbD i = (decide (i < 64) && decide (i = k)) := by
    intro i k
    rw [BitVec.getLsbD_shiftLeft]
    by_cases h1 : i < 64
    · by_cases h2 : i = k
      · subst h2; simp [h1]
      · have hz : (1#64).getLsbD (i - k) = true → i ≤ k := by
          intro h
          rw [BitVec.getLsbD_one] at h
          simp at h; omega
        by_cases h3 : i < k
        · simp [h1, h3]; omega
        · have : (1#64).getLsbD (i - k) = false := by
            cases hc : (1#64).getLsbD (i - k) with
            | false => rfl
            | true => have := hz hc; omega
          simp [h1, h2, this]
    · simp [h1]
  constructor
  · intro h
    have ha' := congrArg (fun v => v.getLsbD a) h
    have hb' := congrArg (fun v => v.getLsbD b) h
    simp only [BitVec.getLsbD_and, BitVec.getLsbD_or, one, bit, ha, hb, decide_true, Bool.true_and, Bool.true_or, Bool.or_true,
      Bool.and_true] at ha' hb'
    exact ⟨ha', hb'⟩
  · rintro ⟨h1, h2⟩
    apply BitVec.eq_of_getLsbD_eq
    intro i hi
    simp only [BitVec.getLsbD_and, BitVec.getLsbD_or, one, bit, hi, decide_true, Bool.true_and]
    by_cases hia : i = a
    · subst hia; simp [h1]
    · by_cases hib : i = b
      · subst hib; simp [h2]
      · simp [hia, hib]

/-- C31. Lookup through a well-formed DT_GNU_HASH section is exact for all names (C strings); if several symbols have the
name it gives the first. -/
theorem C31_gnu_lookup (g : GnuTable) (t : DynTable) (hg : g.Good t) (hash symtab strtab : Rdr) (hw : hash.WF)
    (hb : hash.content = g.bytes) (hin : t.In symtab strtab) (name : List Byte) (hz : ∀ b ∈ name, b ≠ 0#8) :
    ∃ x r, GnuHash.make hash symtab strtab = .ok x ∧ x.findSymbol name = .ok r ∧
      ((∃ i s, r = (i, s) ∧ g.symoffset ≤ i ∧ t.syms[i]? = some s ∧ t.nameOf s = name ∧
          ∀ j u, g.symoffset ≤ j → j < i → t.syms[j]? = some u → t.nameOf u ≠ name) ∨
       (r = (0, undefSym) ∧ ∀ i s, g.symoffset ≤ i → t.syms[i]? = some s → t.nameOf s ≠ name)) := by
  have hsl := hg.size_lt
  have hmk : GnuHash.make hash symtab strtab =
      .ok ⟨hash, symtab, strtab, g.buckets.length, g.symoffset, g.bloom.length, g.shift⟩ := by
    unfold GnuHash.make
    have hro := readObj_at hash hw 0 (([g.buckets.length, g.symoffset, g.bloom.length, g.shift].map (leBytes 4)).flatten)
      ((g.bloom.map (leBytes 8)).flatten ++ ((g.buckets.map (leBytes 4)).flatten ++ (g.chain.map (leBytes 4)).flatten))
      (by rw [List.drop_zero, hb]; unfold GnuTable.bytes; simp only [List.append_assoc])
      (by intro hc; have := header_length g; rw [hc] at this; simp at this)
    rw [header_length] at hro
    rw [hro, Res.bind_ok]
    show Res.ok _ = _
    have e : ([g.buckets.length, g.symoffset, g.bloom.length, g.shift].map (leBytes 4)).flatten =
        leBytes 4 g.buckets.length ++ (leBytes 4 g.symoffset ++ (leBytes 4 g.bloom.length ++ (leBytes 4 g.shift ++ []))) := rfl
    rw [e]
    have f0 := field_at [] (leBytes 4 g.symoffset ++ (leBytes 4 g.bloom.length ++ (leBytes 4 g.shift ++ []))) 0 4 g.buckets.length
      rfl (by omega)
    have f1 := field_at (leBytes 4 g.buckets.length) (leBytes 4 g.bloom.length ++ (leBytes 4 g.shift ++ [])) 4 4 g.symoffset
      (leBytes_length ..) (by have := hg.offset_lt; omega)
    have f2 := field_at (leBytes 4 g.buckets.length ++ leBytes 4 g.symoffset) (leBytes 4 g.shift ++ []) 8 4 g.bloom.length
      (by simp [leBytes_length]) (by omega)
    have f3 := field_at (leBytes 4 g.buckets.length ++ leBytes 4 g.symoffset ++ leBytes 4 g.bloom.length) [] 12 4 g.shift
      (by simp [leBytes_length]) (by have := hg.shift_lt; omega)
    rw [List.append_assoc] at f2 f3
    rw [List.append_assoc] at f3
    rw [List.nil_append] at f0
    rw [f0, f1, f2, f3]
  have ho : Opened g ⟨hash, symtab, strtab, g.buckets.length, g.symoffset, g.bloom.length, g.shift⟩ := ⟨hw, hb, rfl, rfl, rfl, rfl⟩
  suffices H : ∃ r, (GnuHash.mk hash symtab strtab g.buckets.length g.symoffset g.bloom.length g.shift).findSymbol name = .ok r ∧
      ((∃ i s, r = (i, s) ∧ g.symoffset ≤ i ∧ t.syms[i]? = some s ∧ t.nameOf s = name ∧
          ∀ j u, g.symoffset ≤ j → j < i → t.syms[j]? = some u → t.nameOf u ≠ name) ∨
       (r = (0, undefSym) ∧ ∀ i s, g.symoffset ≤ i → t.syms[i]? = some s → t.nameOf s ≠ name)) by
    obtain ⟨r, h1, h2⟩ := H
    exact ⟨_, r, hmk, h1, h2⟩
  have hcs : cstr name = name := by
    unfold cstr
    have h1 := List.takeWhile_append_of_pos (l₁ := name) (l₂ := []) (p := fun b : Byte => decide (b ≠ 0#8))
      (fun a ha => by simpa using hz a ha)
    simpa using h1
  have hbl : djbHash name / 64 % g.bloom.length < g.bloom.length := Nat.mod_lt _ hg.bloom_pos
  have hbw := List.getElem?_eq_getElem hbl
  generalize g.bloom[djbHash name / 64 % g.bloom.length] = bw at hbw
  have hbwlt := hg.bloom_lt bw (List.mem_of_getElem? hbw)
  obtain ⟨rest, hrest⟩ := GnuTable_bloom_at g _ bw hbw
  have hkl : djbHash name % g.buckets.length < g.buckets.length := Nat.mod_lt _ hg.buckets_pos
  have hkw := List.getElem?_eq_getElem hkl
  generalize g.buckets[djbHash name % g.buckets.length] = bi at hkw
  have hbilt := hg.bucket_lt bi (List.mem_of_getElem? hkw)
  obtain ⟨rest2, hrest2⟩ := GnuTable_bucket_at g _ bi hkw
  have hsh : (gnuHash name >>> g.shift).toNat % 64 = djbHash name / 2 ^ g.shift % 64 := by
    rw [BitVec.toNat_ushiftRight, gnuHash_eq, Nat.shiftRight_eq_div_pow]
  unfold GnuHash.findSymbol
  simp only [hcs, gnuHash_eq, hsh]
  rw [if_neg (by have := hg.bloom_pos; omega)]
  have hr1 : readN hash (GnuHash.bloomoff ⟨hash, symtab, strtab, g.buckets.length, g.symoffset, g.bloom.length, g.shift⟩
      (djbHash name / 64 % g.bloom.length)) 8 = .ok bw := by
    have : GnuHash.bloomoff ⟨hash, symtab, strtab, g.buckets.length, g.symoffset, g.bloom.length, g.shift⟩
        (djbHash name / 64 % g.bloom.length) = 16 + 8 * (djbHash name / 64 % g.bloom.length) := by
      unfold GnuHash.bloomoff; omega
    rw [this]
    exact readN_at hash hw _ 8 bw rest (by rw [hb]; exact hrest) (by decide) hbwlt
  have hr2 : readN hash (GnuHash.bucketoff ⟨hash, symtab, strtab, g.buckets.length, g.symoffset, g.bloom.length, g.shift⟩
      (djbHash name % g.buckets.length)) 4 = .ok bi := by
    have : GnuHash.bucketoff ⟨hash, symtab, strtab, g.buckets.length, g.symoffset, g.bloom.length, g.shift⟩
        (djbHash name % g.buckets.length) = 16 + 8 * g.bloom.length + 4 * (djbHash name % g.buckets.length) := by
      unfold GnuHash.bucketoff GnuHash.bloomoff; simp only; omega
    rw [this]
    exact readN_at hash hw _ 4 bi rest2 (by rw [hb]; exact hrest2) (by decide) hbilt
  rw [hr1, Res.bind_ok, if_neg (by have := hg.shift_lt; omega)]
  by_cases hbits : bw.testBit (djbHash name % 64) = true ∧ bw.testBit (djbHash name / 2 ^ g.shift % 64) = true
  · rw [if_neg (fun hc => hc ((bloom_bits bw _ _ (Nat.mod_lt _ (by decide)) (Nat.mod_lt _ (by decide))).2 hbits)),
      if_neg (by have := hg.buckets_pos; omega), hr2, Res.bind_ok]
    rcases hg.first _ bi hkw with ⟨s, f1, f2, f3, f4⟩ | ⟨f1, f2⟩
    · rw [if_neg (by omega)]
      have hidx := (List.getElem?_eq_some_iff.1 f2).1
      have := hg.count_lt
      refine gnu_walk g t hg _ ho hin name _ bi s _ rfl (by omega) f1 f2 f3 ?_
      intro j u h1 h2 h3 hc
      have := f4 j u h1 h3 (by unfold GnuTable.bucketOf; rw [hc])
      omega
    · rw [if_pos (by have := hg.offset_pos; omega)]
      refine ⟨_, rfl, .inr ⟨rfl, ?_⟩⟩
      intro i s h1 h2 hc
      exact f2 i s h1 h2 (by unfold GnuTable.bucketOf; rw [hc])
  · rw [if_pos (fun hc => hbits ((bloom_bits bw _ _ (Nat.mod_lt _ (by decide)) (Nat.mod_lt _ (by decide))).1 hc))]
    refine ⟨_, rfl, .inr ⟨rfl, ?_⟩⟩
    intro i s h1 h2 hc
    obtain ⟨w, k1, k2, k3⟩ := hg.filter i s h1 h2
    rw [hc, hbw] at k1
    simp only [Option.some.injEq] at k1
    rw [← k1, hc] at k2 k3
    exact hbits ⟨k2, k3⟩

/-- C31. `findDynamicSymbol` through the GNU table: the symbol and its index, or the null symbol and 0. -/
theorem C31_find_dynamic_symbol (g : GnuTable) (t : DynTable) (hg : g.Good t) (hash symtab strtab : Rdr) (hw : hash.WF)
    (hb : hash.content = g.bytes) (hin : t.In symtab strtab) (other : Option SymHash) (name : List Byte) (hz : ∀ b ∈ name, b ≠ 0#8) :
    ∃ x s i, GnuHash.make hash symtab strtab = .ok x ∧ findDynamicSymbol (some x) other name = .ok (s, i) ∧
      Exact t (g.symoffset ≤ ·) name (i, s) := by
  obtain ⟨x, r, h1, h2, h3⟩ := C31_gnu_lookup g t hg hash symtab strtab hw hb hin name hz
  have hf : findDynamicSymbol (some x) other name = if r.1 = 0 then .ok (undefSym, 0) else .ok (r.2, r.1) := by
    unfold findDynamicSymbol
    simp only [h2, Res.bind_ok]
    rfl
  rcases h3 with ⟨i, s, rfl, g1, g2, g3, _⟩ | ⟨rfl, g2⟩
  · have h0 : i ≠ 0 := by have := hg.offset_pos; omega
    refine ⟨x, s, i, h1, by rw [hf, if_neg h0], .inl ⟨i, s, rfl, h0, g1, g2, g3⟩⟩
  · exact ⟨x, undefSym, 0, h1, by rw [hf, if_pos rfl], .inr ⟨rfl, g2⟩⟩

/-! ### A table of three symbols -/

/-- `a`, `c`, `b`, after the null symbol. -/
def C31_syms : List Sym := [undefSym, ⟨1, 18, 0, 1, 0x1000, 8⟩, ⟨3, 18, 0, 1, 0x1010, 8⟩, ⟨5, 18, 0, 1, 0x1020, 8⟩]
def C31_strings : List Byte := [0#8, 0x61#8, 0#8, 0x63#8, 0#8, 0x62#8, 0#8]
/-- The names: of the null symbol what `readString` gives for offset 0. -/
def C31_nameOf (s : Sym) : List Byte :=
  if s.name = 1 then [0x61#8] else if s.name = 3 then [0x63#8] else if s.name = 5 then [0x62#8] else nullString
def C31_table : DynTable := ⟨C31_syms, C31_nameOf⟩

/-- Bucket 0: symbols 1 and 2; bucket 1: symbol 3. -/
def C31_gnu : GnuTable := ⟨1, 6, [2 ^ 64 - 1], [1, 3], [177670, 177673, 177671]⟩
/-- Bucket 0: symbol 3; bucket 1: symbols 2 and 1. -/
def C31_sysv : SysvTable := ⟨[3, 2], [0, 0, 1, 0]⟩

theorem C31_cases {i : Nat} {s : Sym} (h : C31_syms[i]? = some s) : i < 4 :=
  (List.getElem?_eq_some_iff.1 h).1

theorem C31_table_in : C31_table.In (.file (C31_syms.map symBytes).flatten) (.file C31_strings) := by
  refine ⟨.inr ⟨by simp only [Rdr.WF]; decide +kernel, by decide +kernel, rfl, by simp [C31_syms, C31_table, SymFits, undefSym]⟩, ?_⟩
  intro s hs
  simp only [C31_table, C31_syms, List.mem_cons, List.not_mem_nil, or_false] at hs
  rcases hs with rfl | rfl | rfl | rfl <;> decide +kernel

theorem C31_gnu_good : C31_gnu.Good C31_table where
  buckets_pos := by decide
  bloom_pos := by decide
  offset_pos := by decide
  shift_lt := by decide
  size_lt := by decide
  count := by decide
  count_lt := by decide
  offset_lt := by decide
  bloom_lt := by decide
  bucket_lt := by decide
  sorted := by
    intro i j s u h1 h2 hs hu
    have hi := C31_cases hs
    have hj := C31_cases hu
    have : (i = 1 ∧ j = 2) ∨ (i = 1 ∧ j = 3) ∨ (i = 2 ∧ j = 3) := by simp only [C31_gnu] at h1; omega
    rcases this with ⟨rfl, rfl⟩ | ⟨rfl, rfl⟩ | ⟨rfl, rfl⟩ <;>
      (simp [C31_table, C31_syms] at hs hu; subst hs; subst hu; decide +kernel)
  first := by
    intro b w hb
    have hlt : b < 2 := (List.getElem?_eq_some_iff.1 hb).1
    left
    have : b = 0 ∨ b = 1 := by omega
    rcases this with rfl | rfl
    · simp [C31_gnu] at hb; subst hb
      refine ⟨_, by decide, rfl, by decide +kernel, fun j u h1 _ _ => h1⟩
    · simp [C31_gnu] at hb; subst hb
      refine ⟨_, by decide, rfl, by decide +kernel, fun j u h1 hu hbk => ?_⟩
      have hj := C31_cases hu
      have : j = 1 ∨ j = 2 ∨ j = 3 := by simp only [C31_gnu] at h1; omega
      rcases this with rfl | rfl | rfl
      · simp [C31_table, C31_syms] at hu; subst hu; revert hbk; decide +kernel
      · simp [C31_table, C31_syms] at hu; subst hu; revert hbk; decide +kernel
      · exact Nat.le_refl _
  words := by
    intro i s h1 hs
    have hi := C31_cases hs
    have : i = 1 ∨ i = 2 ∨ i = 3 := by simp only [C31_gnu] at h1; omega
    rcases this with rfl | rfl | rfl
    · simp [C31_table, C31_syms] at hs; subst hs
      refine ⟨177670, rfl, by decide +kernel, ⟨fun h => by revert h; decide, fun h => ?_⟩⟩
      exact absurd (show C31_gnu.bucketOf (C31_nameOf ⟨3, 18, 0, 1, 0x1010, 8⟩) = C31_gnu.bucketOf (C31_nameOf ⟨1, 18, 0, 1, 0x1000, 8⟩) from
        by decide +kernel) (h ⟨3, 18, 0, 1, 0x1010, 8⟩ rfl)
    · simp [C31_table, C31_syms] at hs; subst hs
      refine ⟨177673, rfl, by decide +kernel, ⟨fun _ u hu => ?_, fun _ => by decide⟩⟩
      simp [C31_table, C31_syms] at hu; subst hu
      decide +kernel
    · simp [C31_table, C31_syms] at hs; subst hs
      refine ⟨177671, rfl, by decide +kernel, ⟨fun _ u hu => ?_, fun _ => by decide⟩⟩
      simp [C31_table, C31_syms] at hu
  filter := by
    intro i s h1 hs
    have hi := C31_cases hs
    refine ⟨2 ^ 64 - 1, ?_, ?_, ?_⟩
    · rw [show C31_gnu.bloom.length = 1 from rfl, Nat.mod_one]; rfl
    · rw [Nat.testBit_two_pow_sub_one]; simp [Nat.mod_lt]
    · rw [Nat.testBit_two_pow_sub_one]; simp [Nat.mod_lt]

theorem C31_sysv_good : C31_sysv.Good C31_table (· ≠ 0) := by
  refine ⟨by decide, by decide, by decide, by decide, by decide, ?_⟩
  intro b i hb
  have hlt : b < 2 := (List.getElem?_eq_some_iff.1 hb).1
  have hb' : b = 0 ∨ b = 1 := by omega
  rcases hb' with rfl | rfl
  · simp [C31_sysv] at hb; subst hb
    refine ⟨[3], .step (by decide) (by decide) .done, ?_⟩
    intro k
    constructor
    · intro hk
      simp at hk; subst hk
      exact ⟨by decide, _, rfl, by decide +kernel⟩
    · rintro ⟨h0, s, hs, hh⟩
      have hk := C31_cases hs
      have : k = 1 ∨ k = 2 ∨ k = 3 := by simp at h0; omega
      rcases this with rfl | rfl | rfl
      · simp [C31_table, C31_syms] at hs; subst hs; revert hh; decide +kernel
      · simp [C31_table, C31_syms] at hs; subst hs; revert hh; decide +kernel
      · simp
  · simp [C31_sysv] at hb; subst hb
    refine ⟨[2, 1], .step (by decide) (show _ = some 1 by decide) (.step (by decide) (by decide) .done), ?_⟩
    intro k
    constructor
    · intro hk
      simp at hk
      rcases hk with rfl | rfl
      · exact ⟨by decide, _, rfl, by decide +kernel⟩
      · exact ⟨by decide, _, rfl, by decide +kernel⟩
    · rintro ⟨h0, s, hs, hh⟩
      have hk := C31_cases hs
      have : k = 1 ∨ k = 2 ∨ k = 3 := by simp at h0; omega
      rcases this with rfl | rfl | rfl
      · simp
      · simp
      · simp [C31_table, C31_syms] at hs; subst hs; revert hh; decide +kernel

end Pstack.Props
