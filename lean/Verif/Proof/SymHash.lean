import Verif.Proof.Elf
namespace Pstack.Elf
open Pstack.Reader Pstack.Spec Pstack.Dwarf

/-! ### Reading numbers and symbols -/

theorem readObj_at (r : Rdr) (h : r.WF) (off : Nat) (bs rest : List Byte) (hd : r.content.drop off = bs ++ rest)
    (hb : bs ≠ []) : r.readObj off bs.length = .ok bs := by
  obtain ⟨hl, hs⟩ := content_length r h
  have hlen : r.size - off = bs.length + rest.length := by
    rw [← hl, ← List.length_drop, hd, List.length_append]
  have hpos : 0 < bs.length := List.length_pos_iff.2 hb
  have h1 : off + bs.length ≤ r.size := by omega
  rw [(Pstack.Props.C04_object_read r h off bs.length (by omega) (by rw [← W64_eq]; omega)).1 h1, hd, List.take_left]

theorem readN_at (r : Rdr) (h : r.WF) (off n v : Nat) (rest : List Byte) (hd : r.content.drop off = leBytes n v ++ rest)
    (hn : 0 < n) (hv : v < 256 ^ n) : readN r off n = .ok v := by
  have := readObj_at r h off (leBytes n v) rest hd (by intro hc; have := leBytes_length n v; rw [hc] at this; simp at this; omega)
  rw [leBytes_length] at this
  unfold readN
  rw [this, Res.bind_ok]
  show Res.ok (load _) = _
  rw [load_eq, leNat_leBytes, Nat.mod_eq_of_lt hv]

/-- An element of an array of `n`-byte numbers. -/
theorem drop_array (n : Nat) (ws : List Nat) : ∀ i v, ws[i]? = some v →
    ∃ rest, ((ws.map (leBytes n)).flatten).drop (n * i) = leBytes n v ++ rest := by
  induction ws with
  | nil => intro i v h; simp at h
  | cons w ws ih =>
    intro i v h
    cases i with
    | zero =>
      simp only [List.getElem?_cons_zero, Option.some.injEq] at h
      exact ⟨(ws.map (leBytes n)).flatten, by simp [h]⟩
    | succ i =>
      simp only [List.getElem?_cons_succ] at h
      obtain ⟨rest, hr⟩ := ih i v h
      refine ⟨rest, ?_⟩
      rw [List.map_cons, List.flatten_cons, Nat.mul_succ, Nat.add_comm, ← List.drop_drop, List.drop_left' (leBytes_length n w)]
      exact hr

theorem array_length (n : Nat) (ws : List Nat) : ((ws.map (leBytes n)).flatten).length = n * ws.length := by
  rw [flatten_length n _ (by intro e he; obtain ⟨w, _, rfl⟩ := List.mem_map.1 he; exact leBytes_length n w), List.length_map,
    Nat.mul_comm]

theorem readSym_at (r : Rdr) (syms : List Sym) (h : HoldsSyms r syms) (i : Nat) (s : Sym) (hs : syms[i]? = some s) :
    readSym r i = .ok s := by
  rcases h with ⟨_, h2⟩ | ⟨h1, h2, h3, h4⟩
  · rw [h2] at hs; simp at hs
  · have hlt : i < syms.length := (List.getElem?_eq_some_iff.1 hs).1
    have hlen : ∀ e ∈ syms.map symBytes, e.length = 24 := by
      intro e he
      obtain ⟨p, _, rfl⟩ := List.mem_map.1 he
      exact symBytes_length p
    have hsz : r.size = syms.length * 24 := by
      rw [← (content_length r h1).1, h3, flatten_length 24 _ hlen, List.length_map]
    have hel := flatten_drop_take 24 (syms.map symBytes) i (symBytes s) hlen (by rw [List.getElem?_map, hs]; rfl)
    have hmod : i * 24 % W64 = i * 24 := Nat.mod_eq_of_lt (by rw [W64_eq]; omega)
    unfold readSym
    rw [hmod]
    have := readObj_at r h1 (i * 24) (symBytes s) ((r.content.drop (i * 24)).drop 24) (by
      rw [h3]
      conv => lhs; rw [← List.take_append_drop 24 ((syms.map symBytes).flatten.drop (i * 24))]
      rw [hel]) (by intro hc; have := symBytes_length s; rw [hc] at this; simp at this)
    rw [symBytes_length] at this
    rw [this, Res.bind_ok]
    show Res.ok _ = _
    rw [sym_decode s (h4 s (List.mem_of_getElem? hs))]

/-! ### The hash functions -/

theorem maskBit : ∀ i, i < 32 → (0xf0000000#32).getLsbD i = decide (28 ≤ i) := by decide

theorem signExtend_ascii (c : Byte) (hc : c.toNat < 128) : (c.signExtend 32).toNat = c.toNat := by
  have : c.msb = false := by
    rw [BitVec.msb_eq_decide]; simp; omega
  rw [BitVec.signExtend_eq_setWidth_of_msb_false this, BitVec.toNat_setWidth]
  omega

theorem fold_bits (t : BitVec 32) :
    ((if t &&& 0xf0000000#32 ≠ 0#32 then t ^^^ ((t &&& 0xf0000000#32) >>> 24) else t) &&& ~~~ (t &&& 0xf0000000#32)).toNat =
      (t.toNat % 2 ^ 28) ^^^ (t.toNat / 2 ^ 28 * 16) := by
  have e : (if t &&& 0xf0000000#32 ≠ 0#32 then t ^^^ ((t &&& 0xf0000000#32) >>> 24) else t) =
      t ^^^ ((t &&& 0xf0000000#32) >>> 24) := by
    by_cases h : t &&& 0xf0000000#32 = 0#32
    · rw [if_neg (by simp [h]), h]; simp
    · rw [if_pos h]
  rw [e]
  apply Nat.eq_of_testBit_eq
  intro i
  rw [BitVec.testBit_toNat, Nat.testBit_xor, Nat.testBit_mod_two_pow, show (16 : Nat) = 2 ^ 4 from rfl, Nat.testBit_mul_two_pow,
    Nat.testBit_div_two_pow, BitVec.testBit_toNat, BitVec.testBit_toNat]
  rw [BitVec.getLsbD_and, BitVec.getLsbD_xor, BitVec.getLsbD_not, BitVec.getLsbD_ushiftRight, BitVec.getLsbD_and, BitVec.getLsbD_and]
  by_cases hi : i < 32
  · rw [maskBit i hi]
    by_cases h4 : 4 ≤ i
    · have e1 : 24 + i = i - 4 + 28 := by omega
      rw [e1]
      by_cases h8 : i - 4 + 28 < 32
      · rw [maskBit _ h8]
        have d1 : decide (28 ≤ i) = false := by simp; omega
        have d2 : decide (28 ≤ i - 4 + 28) = true := by simp
        have d3 : decide (4 ≤ i) = true := by simp [h4]
        have d4 : decide (i < 28) = true := by simp; omega
        have d5 : decide (i < 32) = true := by simp [hi]
        simp [d1, d3, d4, d5]
      · rw [BitVec.getLsbD_of_ge t (i - 4 + 28) (by omega)]
        by_cases h28 : 28 ≤ i
        · have : ¬ i < 28 := by omega
          simp [h28, this]; intro h _; exact h
        · have : i < 28 := by omega
          simp [h28, this, hi]
    · have e1 : (0xf0000000#32).getLsbD (24 + i) = false := by rw [maskBit _ (by omega)]; simp; omega
      have : i < 28 := by omega
      have h28 : ¬ 28 ≤ i := by omega
      simp [e1, h4, this, h28, hi]
  · rw [BitVec.getLsbD_of_ge t i (by omega), BitVec.getLsbD_of_ge t (i - 4 + 28) (by omega), BitVec.getLsbD_of_ge t (24 + i) (by omega)]
    simp

/-- On names of 7-bit characters `elf_hash` is the ABI's hash. -/
theorem elfHash_ascii (name : List Byte) (h : ∀ b ∈ name, b.toNat < 128) : (elfHash name).toNat = sysvHash name := by
  unfold elfHash sysvHash
  suffices H : ∀ (x : BitVec 32) (y : Nat), x.toNat = y → (name.foldl elfHashStep x).toNat =
      name.foldl (fun h c => let t := (16 * h + c.toNat) % 2 ^ 32; (t % 2 ^ 28) ^^^ (t / 2 ^ 28 * 16)) y from H 0#32 0 rfl
  induction name with
  | nil => intro x y hxy; exact hxy
  | cons c name ih =>
    intro x y hxy
    rw [List.foldl_cons, List.foldl_cons]
    apply ih (fun b hb => h b (by simp [hb]))
    unfold elfHashStep
    simp only
    rw [fold_bits]
    have : ((x <<< 4) + c.signExtend 32).toNat = (16 * y + c.toNat) % 2 ^ 32 := by
      rw [BitVec.toNat_add, signExtend_ascii c (h c (by simp)), BitVec.toNat_shiftLeft, hxy, Nat.shiftLeft_eq]
      omega
    rw [this]

theorem gnuHash_eq (name : List Byte) : (gnuHash name).toNat = djbHash name := by
  unfold gnuHash djbHash
  suffices H : ∀ (x : BitVec 32) (y : Nat), x.toNat = y → (name.foldl (fun (h : BitVec 32) c => (h <<< 5) + h + c.setWidth 32) x).toNat =
      name.foldl (fun h c => (33 * h + c.toNat) % 2 ^ 32) y from H 5381#32 5381 rfl
  induction name with
  | nil => intro x y hxy; exact hxy
  | cons c name ih =>
    intro x y hxy
    rw [List.foldl_cons, List.foldl_cons]
    apply ih
    rw [BitVec.toNat_add, BitVec.toNat_add, BitVec.toNat_shiftLeft, hxy, Nat.shiftLeft_eq, BitVec.toNat_setWidth]
    have := c.isLt
    omega

/-! ### DT_HASH -/

theorem words_array (ws : List Nat) (h : ∀ w ∈ ws, w < 2 ^ 32) : words ((ws.map (leBytes 4)).flatten) = ws := by
  induction ws with
  | nil => rfl
  | cons w ws ih =>
    have hb : leBytes 4 w = [BitVec.ofNat 8 (w % 256), BitVec.ofNat 8 (w / 256 % 256), BitVec.ofNat 8 (w / 256 / 256 % 256),
      BitVec.ofNat 8 (w / 256 / 256 / 256 % 256)] := rfl
    have e : words ((List.map (leBytes 4) (w :: ws)).flatten) = load (leBytes 4 w) :: words ((ws.map (leBytes 4)).flatten) := by
      rw [List.map_cons, List.flatten_cons, hb]; rfl
    rw [e, ih (fun x hx => h x (by simp [hx])), load_eq, leNat_leBytes, Nat.mod_eq_of_lt (h w (by simp))]

theorem _root_.Pstack.Spec.HashChain.unique {chain : List Nat} {i : Nat} {is js : List Nat} (h : HashChain chain i is) : HashChain chain i js → is = js := by
  induction h generalizing js with
  | done => intro h; cases h with
    | done => rfl
    | step h0 _ _ => exact absurd rfl h0
  | step h0 hn hr ih =>
    intro h
    cases h with
    | done => exact absurd rfl h0
    | step _ hn' hr' =>
      rw [hn] at hn'
      simp only [Option.some.injEq] at hn'
      subst hn'
      rw [ih hr']

theorem _root_.Pstack.Spec.HashChain.suffix {chain : List Nat} {i : Nat} {is : List Nat} (h : HashChain chain i is) (k : Nat) (hk : k ∈ is) :
    ∃ t, HashChain chain k (k :: t) ∧ t.length < is.length := by
  induction h with
  | done => simp at hk
  | step h0 hn hr ih =>
    rename_i i next is
    rcases List.mem_cons.1 hk with rfl | hk
    · exact ⟨is, .step h0 hn hr, by simp⟩
    · obtain ⟨t, h1, h2⟩ := ih hk
      exact ⟨t, h1, by simp; omega⟩

theorem _root_.Pstack.Spec.HashChain.nodup {chain : List Nat} {i : Nat} {is : List Nat} (h : HashChain chain i is) : is.Nodup := by
  induction h with
  | done => exact List.nodup_nil
  | step h0 hn hr ih =>
    rename_i i next is
    refine List.nodup_cons.2 ⟨fun hm => ?_, ih⟩
    obtain ⟨t, h1, h2⟩ := hr.suffix i hm
    have := h1.unique (.step h0 hn hr)
    simp at this
    rw [this] at h2
    omega

theorem _root_.Pstack.Spec.HashChain.lt {chain : List Nat} {i : Nat} {is : List Nat} (h : HashChain chain i is) : ∀ k ∈ is, k < chain.length ∧ k ≠ 0 := by
  induction h with
  | done => simp
  | step h0 hn hr ih =>
    intro k hk
    rcases List.mem_cons.1 hk with rfl | hk
    · exact ⟨(List.getElem?_eq_some_iff.1 hn).1, h0⟩
    · exact ih k hk

theorem nodup_bound (n : Nat) : ∀ l : List Nat, l.Nodup → (∀ k ∈ l, k < n) → l.length ≤ n := by
  induction n with
  | zero =>
    intro l _ h
    cases l with
    | nil => simp
    | cons a l => exact absurd (h a (by simp)) (by omega)
  | succ n ih =>
    intro l hn h
    have := ih (l.erase n) (hn.erase n) (by
      intro k hk
      have := (hn.mem_erase_iff).1 hk
      have := h k this.2
      omega)
    have hl := List.length_erase (a := n) (l := l)
    split at hl <;> omega

/-- A walk along a chain finds the first symbol on it with the name. -/
theorem SymHash_walk (t : DynTable) (h : SysvTable) (x : SymHash) (hx : x.data = h.buckets.length :: h.chain.length :: (h.buckets ++ h.chain))
    (hnb : x.nbucket = h.buckets.length) (hin : t.In x.syms x.strings) (hc : h.chain.length = t.syms.length) (name : List Byte)
    {i : Nat} {is : List Nat} (hch : HashChain h.chain i is) : ∀ fuel, is.length < fuel →
    (x.walk name fuel i = .ok (0, undefSym) ∧ ∀ k ∈ is, ∀ s, t.syms[k]? = some s → t.nameOf s ≠ name) ∨
    (∃ k s, k ∈ is ∧ t.syms[k]? = some s ∧ t.nameOf s = name ∧ x.walk name fuel i = .ok (k, s)) := by
  induction hch with
  | done =>
    intro fuel hf
    left
    obtain ⟨f, rfl⟩ : ∃ f, fuel = f + 1 := ⟨fuel - 1, by simp at hf; omega⟩
    exact ⟨by simp [SymHash.walk], by simp⟩
  | step h0 hn hr ih =>
    rename_i i next is
    intro fuel hf
    obtain ⟨f, rfl⟩ : ∃ f, fuel = f + 1 := ⟨fuel - 1, by simp at hf; omega⟩
    have hilt : i < t.syms.length := by rw [← hc]; exact (List.getElem?_eq_some_iff.1 hn).1
    have hs := List.getElem?_eq_getElem hilt
    generalize t.syms[i] = s at hs
    have hnm := hin.2 s (List.mem_of_getElem? hs)
    have hunf : x.walk name (f + 1) i = if t.nameOf s = name then .ok (i, s) else x.walk name f next := by
      have hd : x.data[2 + x.nbucket + i]? = some next := by
        rw [hx, hnb, show 2 + h.buckets.length + i = (h.buckets.length + i) + 1 + 1 from by omega, List.getElem?_cons_succ,
          List.getElem?_cons_succ, List.getElem?_append_right (by omega)]
        rw [show h.buckets.length + i - h.buckets.length = i from by omega]; exact hn
      rw [SymHash.walk, if_neg h0, readSym_at _ _ hin.1 i s hs, Res.bind_ok, hnm, Res.bind_ok]
      by_cases hq : t.nameOf s = name
      · rw [if_pos hq, if_pos hq]; rfl
      · rw [if_neg hq, if_neg hq, hd]
    rw [hunf]
    by_cases hq : t.nameOf s = name
    · rw [if_pos hq]
      exact .inr ⟨i, s, by simp, hs, hq, rfl⟩
    · rw [if_neg hq]
      rcases ih f (by simp at hf; omega) with ⟨h1, h2⟩ | ⟨k, s', h1, h2⟩
      · left
        refine ⟨h1, ?_⟩
        intro k hk s' hs'
        rcases List.mem_cons.1 hk with rfl | hk
        · rw [hs] at hs'; simp only [Option.some.injEq] at hs'; rw [← hs']; exact hq
        · exact h2 k hk s' hs'
      · exact .inr ⟨k, s', by simp [h1], h2⟩

/-! ### DT_GNU_HASH -/

theorem or_one_iff (a b : BitVec 32) : (a ||| 1#32) = (b ||| 1#32) ↔ a.toNat / 2 = b.toNat / 2 := by
  constructor
  · intro h
    have h' := congrArg BitVec.toNat h
    rw [BitVec.toNat_or, BitVec.toNat_or] at h'
    have := congrArg (· / 2) h'
    simpa [Nat.or_div_two] using this
  · intro h
    apply BitVec.eq_of_toNat_eq
    rw [BitVec.toNat_or, BitVec.toNat_or]
    have d : ∀ n : Nat, (n ||| 1) = 2 * (n / 2) + 1 := by
      intro n
      have h1 : (n ||| 1) / 2 = n / 2 := by simp [Nat.or_div_two]
      have h2 : (n ||| 1) % 2 = 1 := by simp [Nat.or_mod_two_eq_one]
      omega
    show a.toNat ||| 1 = b.toNat ||| 1
    rw [d, d, h]

end Pstack.Elf
