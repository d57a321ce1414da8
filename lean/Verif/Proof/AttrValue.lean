import Verif.Proof.InfoKeep
import Verif.Spec.AttrValue
/-
The conversions of the values of attributes.
-/
namespace Pstack.Props
open Pstack.Reader Pstack.Spec Pstack.Dwarf Pstack.Die

/-- A number of a table is where it is. -/
theorem table_at {sec : List Byte} {w b i n : Nat} (h : TableHas sec w b i n) : ∃ rest, sec.drop (b + w * i) = leBytes w n ++ rest := by
  obtain ⟨l, rest, h1, h2, _⟩ := h
  induction l generalizing b i with
  | nil => simp at h2
  | cons a l ih =>
    rw [List.map_cons, List.flatten_cons, List.append_assoc] at h1
    cases i with
    | zero =>
      simp at h2; subst h2
      exact ⟨_, h1⟩
    | succ i =>
      have h3 := drop_prefix h1
      rw [leBytes_length] at h3
      rw [List.getElem?_cons_succ] at h2
      obtain ⟨r, hr⟩ := ih h3 h2
      refine ⟨r, ?_⟩
      rw [← hr]
      congr 1
      rw [Nat.mul_add]; omega

/-- A read of a number of a table. -/
theorem table_read {sec : List Byte} {w b i n : Nat} (hw : w = 4 ∨ w = 8) (h : TableHas sec w b i n) :
    ∃ p, getuint sec w (b + w * i) = .ok (BitVec.ofNat 64 n, p) ∧ b + w * i < sec.length ∧ n < 2 ^ 64 := by
  obtain ⟨rest, hr⟩ := table_at h
  have hn : n < 256 ^ w := by obtain ⟨_, _, _, _, h⟩ := h; exact h
  refine ⟨_, reads_uint w n (by omega) hn _ _ hr, ?_, Nat.lt_of_lt_of_le hn (pow256_le w (by omega))⟩
  have := congrArg List.length hr
  rw [List.length_drop, List.length_append, leBytes_length] at this
  omega

/-- An index that is in a section is one the arithmetic of the program can reach. -/
theorem index_word {sec : List Byte} {w b i : Nat} {bw iw : BitVec 64} (hl : sec.length < 2 ^ 64) (h : b + w * i < sec.length) (hb : bw.toNat = b) (hi : iw.toNat = i) :
    (bw + BitVec.ofNat 64 w * iw).toNat = b + w * i ∧ (bw + iw * BitVec.ofNat 64 w).toNat = b + w * i := by
  have e : (BitVec.ofNat 64 w * iw).toNat = (w * i) % 2 ^ 64 := by
    rw [BitVec.toNat_mul, BitVec.toNat_ofNat, hi, Nat.mod_mul_mod]
  have h1 : (bw + BitVec.ofNat 64 w * iw).toNat = b + w * i := by
    rw [BitVec.toNat_add, e, hb]; omega
  exact ⟨h1, by rw [BitVec.mul_comm]; exact h1⟩

theorem headed_length {sec : List Byte} {fmt64 : Bool} {more : List Byte} (h : HeadedBy sec fmt64 more) :
    ∃ len rest, getlength sec 0 = .ok ((len, if fmt64 then 8 else 4), if fmt64 then 12 else 4) ∧ sec.drop (if fmt64 then 12 else 4) = more ++ rest := by
  obtain ⟨len, rest, h1, h2⟩ := h
  cases fmt64 with
  | true =>
    simp only [if_true] at h1 h2 ⊢
    rw [List.append_assoc] at h2
    refine ⟨len, rest, ?_, ?_⟩
    · have := getlength_64 sec (more ++ rest) len 0 h1 (by rw [h2]; rfl)
      exact this
    · have h0 : sec.drop 0 = leBytes 4 0xffffffff ++ (leBytes 8 len ++ (more ++ rest)) := by rw [h2]; rfl
      have h3 := drop_prefix (drop_prefix h0)
      rw [leBytes_length, leBytes_length] at h3
      exact h3
  | false =>
    simp only [Bool.false_eq_true, if_false] at h1 h2 ⊢
    refine ⟨len, rest, ?_, ?_⟩
    · exact getlength_32 sec (more ++ rest) len 0 h1 (by rw [h2]; rfl)
    · have h0 : sec.drop 0 = leBytes 4 len ++ (more ++ rest) := by rw [h2]; rfl
      have h3 := drop_prefix h0
      rw [leBytes_length] at h3
      exact h3

section
variable {d : Sections} {xs : List DieUnit} (hok : InfoOk d xs)
include hok

/-- What kind of number. -/
def isNumKind : FormKind → Bool
  | .fixed _ | .refAddr | .address | .uleb => true
  | _ => false

theorem word_num {s : IState} (hs : ISt d xs s) {y : DIE} {uo : Nat} {x : DieUnit} {o : Nat} {e : DieEntry} (hg : GoodDie d xs s y uo x o e) {i : Nat}
    {b : AttrDecl} {n : Nat} (hi : e.decl.attrs[i]? = some b) (hv : e.vals[i]? = some (.num n))
    (hk : (∃ k, formKind b.form = some k ∧ isNumKind k) ∨ formKind b.form = some .offset ∧ n < 2 ^ (8 * x.offSize - 1)) :
    ∃ w, Attr.form s ⟨y, i⟩ = .ok b.form ∧ Attr.word s ⟨y, i⟩ = .ok w ∧ w.toNat = n := by
  obtain ⟨b', v', k, w, h1, h2, h3, _, h4, h5, h6⟩ := attr_shows hok hs hg hi
  rw [hi] at h1; injection h1 with h1; subst h1
  rw [hv] at h2; injection h2 with h2; subst h2
  have hw : ∃ w', w = .word w' ∧ w'.toNat = n := by
    rcases hk with ⟨k', hk, hn⟩ | ⟨hk, hn⟩ <;> rw [h3] at hk <;> injection hk with hk <;> subst hk
    · cases k <;> first | exact h6 | cases hn
    · obtain ⟨w', q1, q2⟩ := h6
      exact ⟨w', q1, q2 hn⟩
  obtain ⟨w', rfl, hn⟩ := hw
  refine ⟨w', h4, ?_, hn⟩
  unfold Attr.word
  rw [h5, Res.bind_ok]

theorem word_int {s : IState} (hs : ISt d xs s) {y : DIE} {uo : Nat} {x : DieUnit} {o : Nat} {e : DieEntry} (hg : GoodDie d xs s y uo x o e) {i : Nat}
    {b : AttrDecl} {z : Int} (hi : e.decl.attrs[i]? = some b) (hv : e.vals[i]? = some (.int z)) (hk : b.form = 0x0d ∨ b.form = 0x21) :
    Attr.form s ⟨y, i⟩ = .ok b.form ∧ Attr.word s ⟨y, i⟩ = .ok (BitVec.ofInt 64 z) := by
  obtain ⟨b', v', k, w, h1, h2, h3, _, h4, h5, h6⟩ := attr_shows hok hs hg hi
  rw [hi] at h1; injection h1 with h1; subst h1
  rw [hv] at h2; injection h2 with h2; subst h2
  have hw : w = .word (BitVec.ofInt 64 z) := by
    rcases hk with hk | hk <;> rw [hk] at h3 <;> simp only [formKind] at h3 <;> injection h3 with h3 <;> subst h3 <;> exact h6
  subst hw
  refine ⟨h4, ?_⟩
  unfold Attr.word
  rw [h5, Res.bind_ok]

/-- An attribute of the root. -/
theorem rootAttr_some {s : IState} (hs : ISt d xs s) {uo : Nat} {x : DieUnit} (hp : (uo, x) ∈ placeUnits 0 xs) {u : Die.Unit} (hu : openUnit d.info d.abbr uo = .ok u)
    {name i fuel : Nat} (hf : x.tree.root.find name = some i) (h1 : 1 ≤ fuel) :
    ∃ y s', rootAttr d fuel u name s = .ok (some ⟨y, i⟩, s') ∧ Kept d xs s s' ∧ GoodDie d xs s' y uo x (uo + x.rootPos) x.tree.root := by
  obtain ⟨y, s1, g1, g2, g3⟩ := root_good hok hs hp hu
  obtain ⟨f, rfl⟩ : ∃ f, fuel = f + 1 := ⟨fuel - 1, by omega⟩
  refine ⟨y, s1, ?_, g2, g3⟩
  unfold rootAttr
  rw [g1, Res.bind_ok]
  simp only
  rw [getAttr, own_spec hok g2.1 g3, Res.bind_ok, hf]
  rfl

theorem rootAttr_no {s : IState} (hs : ISt d xs s) {uo : Nat} {x : DieUnit} (hp : (uo, x) ∈ placeUnits 0 xs) {u : Die.Unit} (hu : openUnit d.info d.abbr uo = .ok u)
    {name fuel : Nat} (hf : RootHasNo x name) (h1 : 1 ≤ fuel) :
    ∃ s', rootAttr d fuel u name s = .ok (none, s') ∧ Kept d xs s s' := by
  obtain ⟨y, s1, g1, g2, g3⟩ := root_good hok hs hp hu
  obtain ⟨f, rfl⟩ : ∃ f, fuel = f + 1 := ⟨fuel - 1, by omega⟩
  refine ⟨s1, ?_, g2⟩
  unfold rootAttr
  rw [g1, Res.bind_ok]
  simp only
  rw [getAttr, own_spec hok g2.1 g3, Res.bind_ok, hf.1]
  simp only [Option.map_none]
  split
  · rfl
  · rw [own_spec hok g2.1 g3, Res.bind_ok, hf.2.1]
    simp only [Option.map_none, toDIE_none, Res.bind_ok, getAttr.other]
    rw [own_spec hok g2.1 g3, Res.bind_ok, hf.2.2]
    rfl

/-- An offset the root has. -/
theorem rootAttr_offset {s : IState} (hs : ISt d xs s) {uo : Nat} {x : DieUnit} (hp : (uo, x) ∈ placeUnits 0 xs) {u : Die.Unit} (hu : openUnit d.info d.abbr uo = .ok u)
    {name b fuel : Nat} (hf : RootOffset x name b) (h1 : 1 ≤ fuel) :
    ∃ a s' w, rootAttr d fuel u name s = .ok (some a, s') ∧ Kept d xs s s' ∧ Attr.form s' a = .ok 0x17 ∧ Attr.word s' a = .ok w ∧ w.toNat = b := by
  obtain ⟨i, a, f1, f2, f3, f4, f5⟩ := hf
  obtain ⟨y, s', g1, g2, g3⟩ := rootAttr_some hok hs hp hu f1 h1
  obtain ⟨w, k1, k2, k3⟩ := word_num hok g2.1 g3 f2 f3 (.inr ⟨by rw [f4]; rfl, f5⟩)
  exact ⟨_, s', w, g1, g2, by rw [k1, f4], k2, k3⟩

/-- `Unit::addrx`. -/
theorem addrx_spec (hfit : SectionsFit d) {s : IState} (hs : ISt d xs s) {uo : Nat} {x : DieUnit} (hp : (uo, x) ∈ placeUnits 0 xs) {u : Die.Unit}
    (hu : openUnit d.info d.abbr uo = .ok u) {i n fuel : Nat} (h : AddressAt d x i n) (h1 : 1 ≤ fuel) {iw : BitVec 64} (hi : iw.toNat = i) :
    ∃ s', addrx d fuel u iw s = .ok (BitVec.ofNat 64 n, s') ∧ Kept d xs s s' ∧ n < 2 ^ 64 := by
  obtain ⟨sec, b, seg, rest, e1, e2, e3, e4, e5⟩ := h
  obtain ⟨a, s', bw, g1, g2, g3, g4, g5⟩ := rootAttr_offset hok hs hp hu e2 h1
  obtain ⟨p, t1, t2, t3⟩ := table_read (.inr rfl) e5
  refine ⟨s', ?_, g2, t3⟩
  have hb : b < 2 ^ 63 := by
    obtain ⟨_, _, _, _, _, _, q⟩ := e2
    unfold DieUnit.offSize at q
    split at q <;> omega
  have hlen : addrSizeAt sec bw = .ok 8 := by
    unfold addrSizeAt
    have hslt : (2#64).slt bw = true := by
      rw [BitVec.slt_eq_decide]
      have h2 : (2#64).toInt = 2 := by decide
      have h3 : bw.toInt = b := by rw [BitVec.toInt_eq_toNat_of_lt (by omega), g5]
      rw [h2, h3]
      simp; omega
    rw [if_pos hslt]
    have hsub : (bw - 2).toNat = b - 2 := by
      rw [BitVec.toNat_sub, g5]
      simp; omega
    rw [hsub, getu8_prefix sec _ _ _ e4, Res.bind_ok]
    rfl
  unfold addrx
  rw [e1]
  simp only
  rw [g1, Res.bind_ok]
  simp only [toInt]
  rw [g3, Res.bind_ok]
  simp only
  rw [g4, Res.bind_ok, hlen, Res.bind_ok]
  have hx := (index_word (w := 8) (hfit.addr sec e1) t2 g5 hi).2
  rw [show (8 : BitVec 64) = BitVec.ofNat 64 8 from rfl, hx, t1, Res.bind_ok]

theorem dwarfLen_of {uo : Nat} {x : DieUnit} (hp : (uo, x) ∈ placeUnits 0 xs) {u : Die.Unit} (hu : openUnit d.info d.abbr uo = .ok u) {name b : Nat} (hf : RootOffset x name b) :
    u.dwarfLen = x.offSize := by
  obtain ⟨u', t, hop⟩ := opened hok hp
  have : u' = u := by have := hop.isOpen; rw [hu] at this; injection this with this; exact this.symm
  subst this
  have hl := hop.sizes.len
  obtain ⟨hxm, _⟩ := unit_at hok hp
  obtain ⟨hwf, hrd⟩ := hok.units x hxm
  obtain ⟨i, a, f1, f2, f3, f4, f5⟩ := hf
  have hv : x.version ≠ 2 := by
    intro hv
    have := (hrd.v2 hv).2 x.tree.root.decl hwf.tree.1 a (List.mem_of_getElem? f2)
    exact this.1 f4
  have := hwf.version
  rw [hl, if_neg (by simp only [DieUnit.sizes]; omega)]
  rfl

omit hok in
theorem offSize_cases (x : DieUnit) : x.offSize = 4 ∨ x.offSize = 8 := by
  unfold DieUnit.offSize; split
  · exact .inr rfl
  · exact .inl rfl

omit hok in
theorem offSize_eq (x : DieUnit) : (if x.fmt64 then 8 else 4) = x.offSize := rfl

/-- `operator uintmax_t`. -/
theorem toNum_spec (hfit : SectionsFit d) {s : IState} (hs : ISt d xs s) {y : DIE} {uo : Nat} {x : DieUnit} {o : Nat} {e : DieEntry} (hg : GoodDie d xs s y uo x o e) {i : Nat}
    {b : AttrDecl} {v : AttrVal} (hi : e.decl.attrs[i]? = some b) (hv : e.vals[i]? = some v) {n : Nat} (h : HasNumber d x b v n) {fuel : Nat} (h1 : 1 ≤ fuel) :
    ∃ w s', toNum d fuel (some ⟨y, i⟩) s = .ok (w, s') ∧ w.toNat = n ∧ Kept d xs s s' ∧ (b.form ≠ 0x23 → toUint d fuel (some ⟨y, i⟩) s = .ok (w, s')) := by
  -- a word that is the value
  have plain : ∀ w : BitVec 64, Attr.form s ⟨y, i⟩ = .ok b.form → Attr.word s ⟨y, i⟩ = .ok w → w.toNat = n →
      (b.form = 0x0b ∨ b.form = 0x05 ∨ b.form = 0x06 ∨ b.form = 0x07 ∨ b.form = 0x0f ∨ b.form = 0x21 ∨ b.form = 0x01 ∨ b.form = 0x17) →
      ∃ w s', toNum d fuel (some ⟨y, i⟩) s = .ok (w, s') ∧ w.toNat = n ∧ Kept d xs s s' ∧ (b.form ≠ 0x23 → toUint d fuel (some ⟨y, i⟩) s = .ok (w, s')) := by
    intro w k1 k2 k3 hf
    have hu : toUint d fuel (some ⟨y, i⟩) s = .ok (w, s) := by
      unfold toUint
      simp only
      rw [k1, Res.bind_ok]
      rcases hf with h | h | h | h | h | h | h | h <;> rw [h] <;> simp only <;> rw [k2, Res.bind_ok]
    refine ⟨w, s, ?_, k3, Kept.refl hs, fun _ => hu⟩
    unfold toNum
    simp only
    rw [k1, Res.bind_ok, if_neg (by rcases hf with h | h | h | h | h | h | h | h <;> rw [h] <;> decide)]
    exact hu
  cases h with
  | const hf =>
    simp only [isConstForm, Bool.or_eq_true, decide_eq_true_eq] at hf
    have hk : ∃ k, formKind b.form = some k ∧ isNumKind k := by
      rcases hf with ((((hf | hf) | hf) | hf) | hf) | hf <;> rw [hf] <;> exact ⟨_, rfl, rfl⟩
    obtain ⟨w, k1, k2, k3⟩ := word_num hok hs hg hi hv (.inl hk)
    exact plain w k1 k2 k3 (by rcases hf with ((((hf | hf) | hf) | hf) | hf) | hf <;> simp [hf])
  | offset hf hn =>
    obtain ⟨w, k1, k2, k3⟩ := word_num hok hs hg hi hv (.inr ⟨by rw [hf]; rfl, hn⟩)
    exact plain w k1 k2 k3 (by simp [hf])
  | implicit hf hn =>
    obtain ⟨k1, k2⟩ := word_int hok hs hg hi hv (.inr hf)
    exact plain _ k1 k2 (by rw [BitVec.toNat_ofInt]; omega) (by simp [hf])
  | @address j n hf ha =>
    simp only [isAddrxForm, Bool.or_eq_true, decide_eq_true_eq] at hf
    have hk : ∃ k, formKind b.form = some k ∧ isNumKind k := by
      rcases hf with (((hf | hf) | hf) | hf) | hf <;> rw [hf] <;> exact ⟨_, rfl, rfl⟩
    obtain ⟨w, k1, k2, k3⟩ := word_num hok hs hg hi hv (.inl hk)
    obtain ⟨s', g1, g2, g3⟩ := addrx_spec hok hfit hs hg.entry.1 hg.isOpen ha h1 k3
    have hu : toUint d fuel (some ⟨y, i⟩) s = .ok (BitVec.ofNat 64 n, s') := by
      unfold toUint
      simp only
      rw [k1, Res.bind_ok]
      rcases hf with (((h | h) | h) | h) | h <;> rw [h] <;> simp only <;> rw [k2, Res.bind_ok] <;> exact g1
    refine ⟨BitVec.ofNat 64 n, s', ?_, word64 _ g3, g2, fun _ => hu⟩
    unfold toNum
    simp only
    rw [k1, Res.bind_ok, if_neg (by rcases hf with (((h | h) | h) | h) | h <;> rw [h] <;> decide)]
    exact hu
  | @list j rb n hf hb hh ht hn =>
    obtain ⟨w, k1, k2, k3⟩ := word_num hok hs hg hi hv (.inl ⟨.uleb, by rw [hf]; rfl, rfl⟩)
    obtain ⟨a, s', bw, g1, g2, g3, g4, g5⟩ := rootAttr_offset hok hs hg.entry.1 hg.isOpen hb h1
    obtain ⟨len, rest, l1, _⟩ := headed_length hh
    obtain ⟨p, t1, t2, t3⟩ := table_read (offSize_cases x) ht
    refine ⟨bw + BitVec.ofNat 64 n, s', ?_, ?_, g2, fun h => absurd hf h⟩
    · unfold toNum
      simp only
      rw [k1, Res.bind_ok, if_pos hf, k2, Res.bind_ok]
      unfold rnglistx
      rw [g1, Res.bind_ok]
      simp only [toUint]
      rw [g3, Res.bind_ok]
      simp only
      rw [g4, Res.bind_ok, Res.bind_ok]
      simp only
      rw [l1, Res.bind_ok]
      simp only
      rw [offSize_eq, (index_word hfit.rnglists t2 g5 k3).2, t1, Res.bind_ok]
    · rw [BitVec.toNat_add, g5, word64 _ t3]
      omega

/-- `operator intmax_t`. -/
theorem toInt_spec {s : IState} (hs : ISt d xs s) {y : DIE} {uo : Nat} {x : DieUnit} {o : Nat} {e : DieEntry} (hg : GoodDie d xs s y uo x o e) {i : Nat}
    {b : AttrDecl} {v : AttrVal} (hi : e.decl.attrs[i]? = some b) (hv : e.vals[i]? = some v) {z : Int} (h : HasInt x b v z) :
    ∃ w, toInt (some ⟨y, i⟩) s = .ok w ∧ w.toInt = z := by
  have plain : ∀ w : BitVec 64, Attr.form s ⟨y, i⟩ = .ok b.form → Attr.word s ⟨y, i⟩ = .ok w →
      (b.form = 0x0b ∨ b.form = 0x05 ∨ b.form = 0x06 ∨ b.form = 0x07 ∨ b.form = 0x0d ∨ b.form = 0x0f ∨ b.form = 0x21 ∨ b.form = 0x17) →
      toInt (some ⟨y, i⟩) s = .ok w := by
    intro w k1 k2 hf
    unfold toInt
    simp only
    rw [k1, Res.bind_ok]
    rcases hf with h | h | h | h | h | h | h | h <;> rw [h] <;> simp only <;> rw [k2]
  have hnat : ∀ {w : BitVec 64} {n : Nat}, w.toNat = n → n < 2 ^ 63 → w.toInt = n := by
    intro w n h1 h2
    rw [BitVec.toInt_eq_toNat_of_lt (by omega), h1]
  cases h with
  | const hf hn =>
    have hk : ∃ k, formKind b.form = some k ∧ isNumKind k := by
      rcases hf with hf | hf | hf | hf | hf <;> rw [hf] <;> exact ⟨_, rfl, rfl⟩
    obtain ⟨w, k1, k2, k3⟩ := word_num hok hs hg hi hv (.inl hk)
    exact ⟨w, plain w k1 k2 (by rcases hf with hf | hf | hf | hf | hf <;> simp [hf]), hnat k3 hn⟩
  | offset hf hn =>
    obtain ⟨w, k1, k2, k3⟩ := word_num hok hs hg hi hv (.inr ⟨by rw [hf]; rfl, hn⟩)
    refine ⟨w, plain w k1 k2 (by simp [hf]), hnat k3 ?_⟩
    rcases offSize_cases x with e | e <;> rw [e] at hn <;> omega
  | signed hf h1 h2 =>
    obtain ⟨k1, k2⟩ := word_int hok hs hg hi hv hf
    refine ⟨_, plain _ k1 k2 (by rcases hf with hf | hf <;> simp [hf]), ?_⟩
    rw [BitVec.toInt_ofInt]
    rw [Int.bmod_eq_of_le] <;> omega

/-- `operator std::string`. -/
theorem toStr_spec (hfit : SectionsFit d) {s : IState} (hs : ISt d xs s) {y : DIE} {uo : Nat} {x : DieUnit} {o : Nat} {e : DieEntry} (hg : GoodDie d xs s y uo x o e) {i : Nat}
    {b : AttrDecl} {v : AttrVal} (hi : e.decl.attrs[i]? = some b) (hv : e.vals[i]? = some v) {str : List Byte} (h : HasString d x b v str) {fuel : Nat} (h1 : 1 ≤ fuel) :
    ∃ s', toStr d fuel (some ⟨y, i⟩) s = .ok (str, s') ∧ Kept d xs s s' := by
  -- by an index
  have byIndex : ∀ {sec : List Byte} {j n base es : Nat} {bw : BitVec 64} {a : Option Attr} {s1 s2 : IState}, isStrxForm b.form → d.strOffsets = some sec → v = .num j →
      rootAttr d fuel y.unit 0x72 s = .ok (a, s1) → strBase d fuel y.unit sec a s1 = .ok (bw, es, s2) → bw.toNat = base → (es = 4 ∨ es = 8) → TableHas sec es base j n →
      StringAt d.str n str → Kept d xs s s2 → ∃ s', toStr d fuel (some ⟨y, i⟩) s = .ok (str, s') ∧ Kept d xs s s' := by
    intro sec j n base es bw a s1 s2 hf hsec hvj hr hb hbw hes ht hstr hk
    subst hvj
    simp only [isStrxForm, Bool.or_eq_true, decide_eq_true_eq] at hf
    have hkind : ∃ k, formKind b.form = some k ∧ isNumKind k := by
      rcases hf with ((((h | h) | h) | h) | h) | h <;> rw [h] <;> exact ⟨_, rfl, rfl⟩
    obtain ⟨w, k1, k2, k3⟩ := word_num hok hs hg hi hv (.inl hkind)
    obtain ⟨p, t1, t2, t3⟩ := table_read hes ht
    refine ⟨s2, ?_, hk⟩
    have hx : strx d fuel y.unit w s = .ok (str, s2) := by
      unfold strx
      rw [hsec]
      simp only
      rw [hr, Res.bind_ok]
      simp only
      rw [hb, Res.bind_ok]
      simp only
      rw [(index_word (hfit.strOffsets sec hsec) t2 hbw k3).1, t1, Res.bind_ok]
      simp only
      obtain ⟨hgn, rest, hd⟩ := hstr
      rw [word64 _ t3, memString_prefix d.str str rest n hgn hd, Res.bind_ok]
    unfold toStr
    simp only
    rw [k1, Res.bind_ok]
    rcases hf with ((((h | h) | h) | h) | h) | h <;> rw [h] <;> simp only <;> rw [k2, Res.bind_ok] <;> exact hx
  cases h with
  | direct hf hgn =>
    obtain ⟨b', v', k, w, q1, q2, q3, _, q4, q5, q6⟩ := attr_shows hok hs hg hi
    rw [hi] at q1; injection q1 with q1; subst q1
    rw [hv] at q2; injection q2 with q2; subst q2
    rw [hf] at q3; simp only [formKind] at q3; injection q3 with q3; subst q3
    obtain ⟨off, rest, rfl, ho, hd⟩ := q6
    refine ⟨s, ?_, Kept.refl hs⟩
    unfold toStr Attr.word
    simp only
    rw [q4, Res.bind_ok, hf]
    simp only
    rw [q5, Res.bind_ok]
    simp only
    rw [Res.bind_ok, word64 _ ho, memString_prefix d.info str rest off hgn hd, Res.bind_ok]
  | str hf hn hstr =>
    obtain ⟨w, k1, k2, k3⟩ := word_num hok hs hg hi hv (.inr ⟨by rw [hf]; rfl, hn⟩)
    obtain ⟨hgn, rest, hd⟩ := hstr
    refine ⟨s, ?_, Kept.refl hs⟩
    unfold toStr
    simp only
    rw [k1, Res.bind_ok, hf]
    simp only
    rw [k2, Res.bind_ok, k3, memString_prefix d.str str rest _ hgn hd, Res.bind_ok]
  | line hf hn hstr =>
    obtain ⟨w, k1, k2, k3⟩ := word_num hok hs hg hi hv (.inr ⟨by rw [hf]; rfl, hn⟩)
    obtain ⟨hgn, rest, hd⟩ := hstr
    refine ⟨s, ?_, Kept.refl hs⟩
    unfold toStr
    simp only
    rw [k1, Res.bind_ok, hf]
    simp only
    rw [k2, Res.bind_ok, k3, memString_prefix d.lineStr str rest _ hgn hd, Res.bind_ok]
  | index hf hsec hb ht hstr =>
    obtain ⟨a, s', bw, g1, g2, g3, g4, g5⟩ := rootAttr_offset hok hs hg.entry.1 hg.isOpen hb h1
    refine byIndex hf hsec rfl g1 (s2 := s') (bw := bw) (es := x.offSize) ?_ g5 (offSize_cases x) ht hstr g2
    unfold strBase
    simp only [toNum, toUint]
    rw [g3, Res.bind_ok, if_neg (by decide), Res.bind_ok]
    simp only
    rw [g4, Res.bind_ok, Res.bind_ok, dwarfLen_of hok hg.entry.1 hg.isOpen hb]
  | @indexHeader sec fmt64 version pad j n _ hf hsec hb hv5 hver hpad hh ht hstr =>
    obtain ⟨s', g1, g2⟩ := rootAttr_no hok hs hg.entry.1 hg.isOpen hb h1
    obtain ⟨u', t, hop⟩ := opened hok hg.entry.1
    have hu : u' = y.unit := by have := hop.isOpen; rw [hg.isOpen] at this; injection this with this; exact this.symm
    subst hu
    obtain ⟨len, rest, l1, l2⟩ := headed_length hh
    rw [List.append_assoc] at l2
    have r1 := reads_u16 version hver _ _ l2
    have l3 := drop_prefix l2
    have r2 := reads_u16 pad hpad _ _ l3
    refine byIndex hf hsec rfl g1 (s2 := s') (bw := BitVec.ofNat 64 (if fmt64 then 16 else 8)) (es := if fmt64 then 8 else 4) (base := if fmt64 then 16 else 8) ?_
      (by cases fmt64 <;> rfl) (by cases fmt64 <;> simp) ht hstr g2
    unfold strBase
    simp only
    have hver' : y.unit.version = x.version := hop.sizes.version
    rw [if_pos (by rw [hver']; exact hv5), l1, Res.bind_ok]
    simp only
    rw [r1, Res.bind_ok]
    simp only
    rw [r2, Res.bind_ok]
    simp only [leBytes_length]
    cases fmt64 <;> rfl
  | indexOld hf hsec hb hv4 ht hstr =>
    obtain ⟨s', g1, g2⟩ := rootAttr_no hok hs hg.entry.1 hg.isOpen hb h1
    obtain ⟨u', t, hop⟩ := opened hok hg.entry.1
    have hu : u' = y.unit := by have := hop.isOpen; rw [hg.isOpen] at this; injection this with this; exact this.symm
    subst hu
    refine byIndex hf hsec rfl g1 (s2 := s') (bw := 0) (es := 4) (base := 0) ?_ rfl (.inl rfl) ht hstr g2
    unfold strBase
    simp only
    have hver' : y.unit.version = x.version := hop.sizes.version
    rw [if_neg (by rw [hver']; omega)]

end

end Pstack.Props
