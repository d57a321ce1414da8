import Verif.Proof.DieWalk
import Verif.Proof.LineHdr
/-
From the bytes of a unit to its entries.
-/
namespace Pstack.Props
open Pstack.Reader Pstack.Spec Pstack.Dwarf Pstack.Die

section
variable {d : List Byte}

theorem reads_u32 (n : Nat) (hn : n < 2 ^ 32) : Reads d (getu32 d) (leBytes 4 n) (BitVec.ofNat 32 n) := by
  intro off rest h
  have en : (BitVec.ofNat 32 n).toNat = n := by rw [BitVec.toNat_ofNat]; exact Nat.mod_eq_of_lt hn
  rw [getu32_prefix d rest (BitVec.ofNat 32 n) off (by rw [en]; exact h), leBytes_length]

theorem word8 (n : Nat) (hn : n < 256) : ((BitVec.ofNat 8 n).setWidth 64).toNat = n := by
  simp; omega

theorem word16 (n : Nat) (hn : n < 2 ^ 16) : ((BitVec.ofNat 16 n).setWidth 64).toNat = n := by
  simp; omega

theorem word32 (n : Nat) (hn : n < 2 ^ 32) : ((BitVec.ofNat 32 n).setWidth 64).toNat = n := by
  simp; omega

theorem word64 (n : Nat) (hn : n < 2 ^ 64) : (BitVec.ofNat 64 n).toNat = n := by
  simp; omega

theorem pow256_le (w : Nat) (hw : w ≤ 8) : 256 ^ w ≤ 2 ^ 64 := by
  calc 256 ^ w ≤ 256 ^ 8 := Nat.pow_le_pow_right (by decide) hw
    _ = 2 ^ 64 := by decide

/-- A number in a fixed number of bytes. -/
theorem num1 (n : Nat) (hn : n < 256 ^ 1) : ∃ x : BitVec 64, Reads d (getu8 d >>= fun b => pure (Value.word (b.setWidth 64))) (leBytes 1 n) (.word x) ∧ x.toNat = n :=
  ⟨_, (reads_byte n).map (f := fun b => Value.word (b.setWidth 64)), word8 n hn⟩

theorem num2 (n : Nat) (hn : n < 256 ^ 2) : ∃ x : BitVec 64, Reads d (getu16 d >>= fun b => pure (Value.word (b.setWidth 64))) (leBytes 2 n) (.word x) ∧ x.toNat = n :=
  ⟨_, (reads_u16 n (by simpa using hn)).map (f := fun b => Value.word (b.setWidth 64)), word16 n (by simpa using hn)⟩

theorem num4 (n : Nat) (hn : n < 256 ^ 4) : ∃ x : BitVec 64, Reads d (getu32 d >>= fun b => pure (Value.word (b.setWidth 64))) (leBytes 4 n) (.word x) ∧ x.toNat = n :=
  ⟨_, (reads_u32 n (by simpa using hn)).map (f := fun b => Value.word (b.setWidth 64)), word32 n (by simpa using hn)⟩

theorem numW (w n : Nat) (hw : w ≤ 8) (hn : n < 256 ^ w) : ∃ x : BitVec 64, Reads d (getuint d w >>= fun b => pure (Value.word b)) (leBytes w n) (.word x) ∧ x.toNat = n :=
  ⟨_, (reads_uint w n (by omega) hn).map (f := fun b => Value.word b), word64 n (Nat.lt_of_lt_of_le hn (pow256_le w hw))⟩

/-- An offset, read as a signed number. -/
theorem numS (w n : Nat) (h1 : 1 ≤ w) (hw : w ≤ 8) : ∃ x : BitVec 64, Reads d (getint d w >>= fun b => pure (Value.word b)) (leBytes w n) (.word x) ∧
    (n < 2 ^ (8 * w - 1) → x.toNat = n) := by
  have hr : Reads d (getint d w) (leBytes w n) (BitVec.ofInt 64 (leInt (leBytes w n))) := by
    intro off rest h
    have := getint_prefix d (leBytes w n) rest off h (by rw [leBytes_length]; exact hw) (by
      intro e
      have := congrArg List.length e
      rw [leBytes_length] at this
      simp at this; omega)
    rwa [leBytes_length] at this ⊢
  refine ⟨_, hr.map (f := fun b => Value.word b), ?_⟩
  intro hn
  have hlt : n < 256 ^ w := by
    refine Nat.lt_of_lt_of_le hn ?_
    calc 2 ^ (8 * w - 1) ≤ 2 ^ (8 * w) := Nat.pow_le_pow_right (by decide) (by omega)
      _ = 256 ^ w := by rw [Nat.pow_mul]
  have h63 : n < 2 ^ 63 := Nat.lt_of_lt_of_le hn (Nat.pow_le_pow_right (by decide) (by omega))
  unfold leInt
  simp only [leNat_leBytes, leBytes_length]
  rw [Nat.mod_eq_of_lt hlt]
  rw [if_pos hn]
  rw [BitVec.ofInt_natCast]
  exact word64 n (by omega)

variable (hw : d.length < W64)
include hw

theorem numU (n : Nat) (hn : n < 2 ^ 64) : ∃ x : BitVec 64, Reads d (getuleb128 d >>= fun b => pure (Value.word b)) (encodeU n) (.word x) ∧ x.toNat = n :=
  ⟨_, (reads_uleb hw n hn).map (f := fun b => Value.word b), word64 n hn⟩

theorem reads_sleb (z : Int) (h1 : -2 ^ 63 ≤ z) (h2 : z < 2 ^ 63) : Reads d (getsleb128 d) (encodeS z) (BitVec.ofInt 64 z) :=
  fun off rest h => slebI d rest z h1 h2 off h hw

/-- A block after its length. -/
theorem reads_block {β : Type} {lenp : Parse β} {b : β} (g : β → Nat) {lb bs : List Byte} (hl : Reads d lenp lb b) (hg : g b = bs.length) (hne : lb ≠ []) {off : Nat} {rest : List Byte}
    (h : d.drop off = (lb ++ bs) ++ rest) :
    (lenp >>= fun n => readBlock (g n)) off = .ok (.block bs.length (off + lb.length), off + (lb ++ bs).length) ∧
    d.drop (off + lb.length) = bs ++ rest := by
  rw [List.append_assoc] at h
  have h2 := drop_prefix h
  refine ⟨?_, h2⟩
  have hle := off_le_of_drop h hne
  have hlen : (d.drop off).length = lb.length + (bs.length + rest.length) := by rw [h]; simp
  rw [List.length_drop] at hlen
  have hpos : 0 < lb.length := List.length_pos_iff.2 hne
  rw [Parse.bind_ok (hl off _ h), hg]
  show Res.ok (Value.block bs.length (off + lb.length), (off + lb.length + bs.length) % W64) = _
  rw [Nat.mod_eq_of_lt (by omega), List.length_append]
  congr 2; omega

/-- The unit has the sizes. -/
structure SizesOf (u : Die.Unit) (sz : Sizes) : Prop where
  version : u.version = sz.version
  ge : 2 ≤ sz.version
  addr : u.addrlen = sz.addrSize
  addr8 : sz.addrSize ≤ 8
  off : sz.offSize = 4 ∨ sz.offSize = 8
  len : u.dwarfLen = if sz.version ≤ 2 then 8 else sz.offSize
  v2 : sz.version = 2 → sz.offSize = 4 ∧ sz.addrSize = 8

/-- The library knows the form in the version. -/
def FormOk (sz : Sizes) (form : Nat) : Prop :=
  (form ≠ 0x16 ∧ form ≠ 0x1c ∧ form ≠ 0x1d ∧ form ≠ 0x1e ∧ form ≠ 0x24) ∧ (sz.version = 2 → form ≠ 0x17 ∧ form ≠ 0x1f20 ∧ form ≠ 0x1f21)

theorem value_reads {u : Die.Unit} {sz : Sizes} (hu : SizesOf u sz) (form : Nat) (value : BitVec 64) (c : Int) (k : FormKind) (v : AttrVal)
    (hf : FormOk sz form) (hk : formKind form = some k) (hfit : k.Fits sz c v) (hc : form = 0x21 → value = BitVec.ofInt 64 c)
    {off : Nat} {rest : List Byte} (h : d.drop off = k.encode sz v ++ rest) :
    ∃ w, readValue d u ⟨form, value⟩ off = .ok (w, off + (k.encode sz v).length) ∧ Means d sz k v w := by
  -- numbers
  have num : ∀ {p : Parse Value} {bs : List Byte} {n : Nat}, (∃ x : BitVec 64, Reads d p bs (.word x) ∧ x.toNat = n) → d.drop off = bs ++ rest →
      ∃ w, p off = .ok (w, off + bs.length) ∧ ∃ x, w = .word x ∧ x.toNat = n := by
    rintro p bs n ⟨x, hx, hn⟩ hd
    exact ⟨_, hx off rest hd, x, rfl, hn⟩
  have numO : ∀ {p : Parse Value} {bs : List Byte} {n : Nat}, (∃ x : BitVec 64, Reads d p bs (.word x) ∧ (n < 2 ^ (8 * sz.offSize - 1) → x.toNat = n)) →
      d.drop off = bs ++ rest → ∃ w, p off = .ok (w, off + bs.length) ∧ ∃ x, w = .word x ∧ (n < 2 ^ (8 * sz.offSize - 1) → x.toNat = n) := by
    rintro p bs n ⟨x, hx, hn⟩ hd
    exact ⟨_, hx off rest hd, x, rfl, hn⟩
  have blk : ∀ {β : Type} {lenp : Parse β} {b : β} (g : β → Nat) {lb bs : List Byte}, Reads d lenp lb b → g b = bs.length → lb ≠ [] → d.drop off = (lb ++ bs) ++ rest →
      ∃ w, (lenp >>= fun n => readBlock (g n)) off = .ok (w, off + (lb ++ bs).length) ∧ ∃ o r, w = .block bs.length o ∧ d.drop o = bs ++ r := by
    intro β lenp b g lb bs hl hg hne hd
    obtain ⟨h1, h2⟩ := reads_block hw g hl hg hne hd
    exact ⟨_, h1, _, rest, rfl, h2⟩
  have hoff8 : sz.offSize ≤ 8 := by rcases hu.off with e | e <;> omega
  have hoff1 : 1 ≤ sz.offSize := by rcases hu.off with e | e <;> omega
  have hv := hu.version
  have hge := hu.ge
  have hlen3 : sz.version ≠ 2 → u.dwarfLen = sz.offSize := by intro h2; rw [hu.len, if_neg (by omega)]
  have hlenS : (if u.version ≤ 2 then 4 else u.dwarfLen) = sz.offSize := by
    by_cases h2 : sz.version = 2
    · rw [if_pos (by omega), (hu.v2 h2).1]
    · rw [if_neg (by omega), hlen3 h2]
  have hlenR : u.dwarfLen = sz.refAddr := by
    unfold Sizes.refAddr
    by_cases h2 : sz.version = 2
    · rw [if_pos h2, hu.len, if_pos (by omega), (hu.v2 h2).2]
    · rw [if_neg h2, hlen3 h2]
  have href8 : sz.refAddr ≤ 8 := by
    unfold Sizes.refAddr; split
    · exact hu.addr8
    · exact hoff8
  obtain ⟨⟨f1, f2, f3, f4, f5⟩, f6⟩ := hf
  have hne : ∀ w n : Nat, 0 < w → leBytes w n ≠ [] := by
    intro w n h0 e
    have := congrArg List.length e
    rw [leBytes_length] at this; simp at this; omega
  have hneU : ∀ n, encodeU n ≠ [] := by
    intro n; rw [encodeU]; split <;> simp
  have keyS : ∀ W n, W = sz.offSize → d.drop off = leBytes sz.offSize n ++ rest →
      ∃ w, (getint d W >>= fun b => pure (Value.word b)) off = .ok (w, off + (leBytes sz.offSize n).length) ∧
        ∃ x, w = .word x ∧ (n < 2 ^ (8 * sz.offSize - 1) → x.toNat = n) := by
    rintro W n rfl hd
    exact numO (numS _ n hoff1 hoff8) hd
  have keyO : ∀ W n, W = sz.offSize → n < 256 ^ sz.offSize → d.drop off = leBytes sz.offSize n ++ rest →
      ∃ w, (getuint d W >>= fun b => pure (Value.word b)) off = .ok (w, off + (leBytes sz.offSize n).length) ∧
        ∃ x, w = .word x ∧ (n < 2 ^ (8 * sz.offSize - 1) → x.toNat = n) := by
    rintro W n rfl hn hd
    obtain ⟨x, h1, h2⟩ := numW _ n hoff8 hn
    exact numO ⟨x, h1, fun _ => h2⟩ hd
  have blkU : ∀ bs : List Byte, d.drop off = (encodeU bs.length ++ bs) ++ rest →
      ∃ w, (getuleb128 d >>= fun n => readBlock n.toNat) off = .ok (w, off + (encodeU bs.length ++ bs).length) ∧
        ∃ o r, w = .block bs.length o ∧ d.drop o = bs ++ r := by
    intro bs hd
    have hle := off_le_of_drop hd (by simp [hneU])
    rw [List.length_append] at hle
    have hlt : bs.length < 2 ^ 64 := by rw [← W64_eq]; omega
    exact blk (fun n => n.toNat) (reads_uleb hw _ hlt) (word64 _ hlt) (hneU _) hd
  have str : ∀ {s : List Byte} (off : Nat) (rest : List Byte), d.drop off = (s ++ [0#8]) ++ rest → GoodName s →
      (do let off ← getOffset
          let _ ← getstring d
          pure (Value.word (BitVec.ofNat 64 off)) : Parse Value) off = .ok (.word (BitVec.ofNat 64 off), off + (s ++ [0#8]).length) := by
    intro s off rest hd hg
    show ((getstring d >>= fun _ => pure (Value.word (BitVec.ofNat 64 off))) : Parse Value) off = _
    exact (reads_string hw s hg).map (f := fun _ => Value.word (BitVec.ofNat 64 off)) off rest hd
  unfold formKind at hk
  split at hk
  all_goals first
    | (exact absurd rfl f1) | (exact absurd rfl f2) | (exact absurd rfl f3) | (exact absurd rfl f4) | (exact absurd rfl f5)
    | (cases hk; done)
    | skip
  all_goals
    injection hk with hk
    subst hk
    cases v
    all_goals first | exact hfit.elim | skip
  all_goals first
    | exact num (num1 _ hfit) h
    | exact num (num2 _ hfit) h
    | exact num (num4 _ hfit) h
    | exact num (numW 8 _ (by decide) hfit) h
    | exact num (numW 3 _ (by decide) hfit) h
    | exact num (numU hw _ hfit) h
    | (rename_i n
       have hfit' : n < 256 ^ u.addrlen := by rw [hu.addr]; exact hfit
       have h' : d.drop off = leBytes u.addrlen n ++ rest := by rw [hu.addr]; exact h
       have := num (numW u.addrlen n (by rw [hu.addr]; exact hu.addr8) hfit') h'
       rw [leBytes_length] at this
       show ∃ w, _ = Res.ok (w, off + (leBytes sz.addrSize n).length) ∧ _
       rw [leBytes_length, ← hu.addr]
       exact this)
    | (rename_i n
       have h' : d.drop off = leBytes u.dwarfLen n ++ rest := by rw [hlenR]; exact h
       have := num (numW u.dwarfLen n (by rw [hlenR]; exact href8) (by rw [hlenR]; exact hfit)) h'
       rw [leBytes_length] at this
       show ∃ w, _ = Res.ok (w, off + (leBytes sz.refAddr n).length) ∧ _
       rw [leBytes_length, ← hlenR]
       exact this)
    | exact keyS _ _ hlenS h
    | exact keyS _ _ (hlen3 (fun e => (f6 e).1 rfl)) h
    | exact keyS _ _ (hlen3 (fun e => (f6 e).2.2 rfl)) h
    | exact keyO _ _ (hlen3 (fun e => (f6 e).2.1 rfl)) hfit h
    | exact ⟨_, (reads_sleb hw _ hfit.1 hfit.2).map (f := fun b => Value.word b) off rest h, rfl⟩
    | exact ⟨_, (reads_u8 _).map (f := fun b : Byte => Value.flag (b ≠ 0#8)) off rest h, rfl⟩
    | exact ⟨_, rfl, rfl⟩
    | skip
  · exact blk (fun n => n.toNat) (reads_u16 _ (by have : _ < 256 ^ 9 := Nat.lt_of_lt_of_le hfit (by decide); exact hfit)) (by have : _ < 256 ^ 2 := hfit; simp; omega) (hne 2 _ (by decide)) h
  · exact blk (fun n => n.toNat) (reads_u32 _ (by have : _ < 256 ^ 9 := Nat.lt_of_lt_of_le hfit (by decide); exact hfit)) (by have : _ < 256 ^ 4 := hfit; simp; omega) (hne 4 _ (by decide)) h
  · have hle := off_le_of_drop h (by simp [FormKind.encode])
    refine ⟨_, str off rest h hfit, off, rest, rfl, ?_, ?_⟩
    · rw [← W64_eq]; omega
    · have h' : d.drop off = (_ ++ [0#8]) ++ rest := h
      rw [List.append_assoc] at h'
      exact h'
  · exact blkU _ h
  · exact blk (fun n => n.toNat) (reads_byte _) (by have : _ < 256 ^ 1 := hfit; simp; omega) (hne 1 _ (by decide)) h
  · exact blkU _ h
  · refine ⟨_, rfl, ?_⟩
    show Value.word value = _
    rw [hc rfl, show _ = c from hfit]

/-! ### Abbreviations -/

omit hw in
/-- An attribute added to an abbreviation. -/
def addAttr (a : Abbrev) (x : AttrDecl) : Abbrev :=
  ⟨a.tag, a.hasChildren, a.forms ++ [⟨x.form, if x.form = 0x21 then BitVec.ofInt 64 x.const else 0#64⟩], a.names ++ [(x.name, a.forms.length)],
    if x.name = 1 then some a.forms.length else a.nextSib⟩

omit hw in
def abbrevOf (x : DieDecl) : Abbrev := x.attrs.foldl addAttr ⟨x.tag, x.children, [], [], none⟩

omit hw in
theorem encodeU_small (n : Nat) (h : n < 128) : encodeU n = [BitVec.ofNat 8 n] := by
  rw [encodeU, if_pos h]

omit hw in
theorem encodeU_ne (n : Nat) : encodeU n ≠ [] := by
  rw [encodeU]; split <;> simp

theorem reads_attrs (l : List AttrDecl) : ∀ (a : Abbrev) (fuel : Nat), (∀ x ∈ l, x.WF) → l.length < fuel →
    Reads d (attrLoop d fuel a.forms.length a) ((l.map AttrDecl.encode).flatten ++ [0#8, 0#8]) (l.foldl addAttr a) := by
  induction l with
  | nil =>
    intro a fuel _ hf
    obtain ⟨fuel, rfl⟩ : ∃ n, fuel = n + 1 := ⟨fuel - 1, by simp at hf; omega⟩
    rw [attrLoop]
    have h0 := reads_uleb hw 0 (by decide)
    rw [encodeU_small 0 (by decide)] at h0
    have := h0.bind (f := fun name => do
      let form ← getuleb128 d
      let name := (name.setWidth 32).toNat
      let form := (form.setWidth 32).toNat
      if name = 0 ∧ form = 0 then pure a
      else do
        let value ← if form = 0x21 then getsleb128 d else pure 0#64
        attrLoop d fuel (a.forms.length + 1)
          ⟨a.tag, a.hasChildren, a.forms ++ [⟨form, value⟩], a.names ++ [(name, a.forms.length)], if name = 1 then some a.forms.length else a.nextSib⟩)
      (h0.bind (Reads.pure a))
    exact this
  | cons x l ih =>
    intro a fuel hx hf
    obtain ⟨fuel, rfl⟩ : ∃ n, fuel = n + 1 := ⟨fuel - 1, by simp at hf; omega⟩
    have hxw := hx x (by simp)
    rw [attrLoop, List.map_cons, List.flatten_cons, AttrDecl.encode]
    rw [List.append_assoc, List.append_assoc]
    refine (reads_uleb hw x.name (by have := hxw.name; omega)).bind ?_
    rw [List.append_assoc]
    refine (reads_uleb hw x.form (by have := hxw.form; omega)).bind ?_
    have e1 : ((BitVec.ofNat 64 x.name).setWidth 32).toNat = x.name := by have := hxw.name; simp; omega
    have e2 : ((BitVec.ofNat 64 x.form).setWidth 32).toNat = x.form := by have := hxw.form; simp; omega
    simp only [e1, e2]
    rw [if_neg (by rintro ⟨h, _⟩; have := hxw.name; omega)]
    have := ih (addAttr a x) fuel (fun y hy => hx y (by simp [hy])) (by simp at hf; omega)
    rw [show (addAttr a x).forms.length = a.forms.length + 1 by simp [addAttr]] at this
    rw [List.foldl_cons]
    by_cases h : x.form = 0x21
    · rw [if_pos h, if_pos h]
      refine (reads_sleb hw _ hxw.const.1 hxw.const.2).bind ?_
      simp only [addAttr, if_pos h] at this ⊢
      exact this
    · rw [if_neg h, if_neg h]
      refine (Reads.pure 0#64).bind ?_
      simp only [addAttr, if_neg h] at this ⊢
      exact this

theorem reads_decl (x : DieDecl) (hx : x.WF) :
    Reads d (readAbbrev d) (encodeU x.tag ++ ([if x.children then 1#8 else 0#8] ++ ((x.attrs.map AttrDecl.encode).flatten ++ [0#8, 0#8]))) (abbrevOf x) := by
  intro off rest h
  have hlen : x.attrs.length < d.length + 1 := by
    have h1 := congrArg List.length h
    rw [List.length_drop] at h1
    have h2 := flatten_ge AttrDecl.encode x.attrs (fun a _ => by simp [AttrDecl.encode, encodeU_ne])
    simp only [List.length_append] at h1
    omega
  refine Reads.bind (d := d) (f := fun tag => do
      let flag ← getu8 d
      attrLoop d (d.length + 1) 0 ⟨(tag.setWidth 32).toNat, flag.toNat = 1, [], [], none⟩) (reads_uleb hw x.tag (by have := hx.tag; omega)) ?_ off rest h
  refine (reads_u8 _).bind ?_
  have := reads_attrs hw x.attrs ⟨x.tag, x.children, [], [], none⟩ (d.length + 1) hx.attrs hlen
  have e1 : ((BitVec.ofNat 64 x.tag).setWidth 32).toNat = x.tag := by have := hx.tag; simp; omega
  have e2 : decide ((if x.children then 1#8 else 0#8 : Byte).toNat = 1) = x.children := by cases x.children <;> rfl
  rw [e1, e2]
  exact this

theorem reads_decls (l : List DieDecl) : ∀ (acc : List (Nat × Abbrev)) (fuel : Nat), (∀ x ∈ l, x.WF) → l.length < fuel →
    Reads d (loadLoop d fuel acc) (encodeDecls l) (acc ++ l.map (fun x => (x.code, abbrevOf x))) := by
  induction l with
  | nil =>
    intro acc fuel _ hf
    obtain ⟨fuel, rfl⟩ : ∃ n, fuel = n + 1 := ⟨fuel - 1, by simp at hf; omega⟩
    rw [loadLoop]
    have h0 := reads_uleb hw 0 (by decide)
    rw [encodeU_small 0 (by decide)] at h0
    have := h0.bind (f := fun code => if code = 0 then pure acc else do
        let a ← readAbbrev d
        loadLoop d fuel (acc ++ [(code.toNat, a)])) (Reads.pure acc)
    simpa [encodeDecls] using this
  | cons x l ih =>
    intro acc fuel hx hf
    obtain ⟨fuel, rfl⟩ : ∃ n, fuel = n + 1 := ⟨fuel - 1, by simp at hf; omega⟩
    have hxw := hx x (by simp)
    have hc := hxw.code
    rw [loadLoop, encodeDecls, List.map_cons, List.flatten_cons, DieDecl.encode, List.append_assoc, List.append_assoc]
    refine (reads_uleb hw x.code hc.2).bind ?_
    rw [if_neg (by
      intro e
      have := congrArg BitVec.toNat e
      rw [word64 _ hc.2] at this
      simp at this; omega), word64 _ hc.2]
    refine (reads_decl hw x hxw).bind ?_
    have := ih (acc ++ [(x.code, abbrevOf x)]) fuel (fun y hy => hx y (by simp [hy])) (by simp at hf; omega)
    rw [List.map_cons]
    simpa [encodeDecls] using this

omit hw in
theorem findAbbrev_mem {l : List DieDecl} (hp : l.Pairwise (fun a b => a.code ≠ b.code)) {x : DieDecl} (hm : x ∈ l) :
    findAbbrev (l.map (fun x => (x.code, abbrevOf x))) x.code = some (abbrevOf x) := by
  induction l with
  | nil => cases hm
  | cons y l ih =>
    unfold findAbbrev
    rw [List.map_cons, List.find?_cons]
    rw [List.pairwise_cons] at hp
    rcases List.mem_cons.1 hm with rfl | hm
    · simp
    · have := hp.1 x hm
      rw [show decide ((y.code, abbrevOf y).1 = x.code) = false by simpa using this]
      exact ih hp.2 hm

/-! ### Entries -/

omit hw in
def formOf (x : AttrDecl) : FormEntry := ⟨x.form, if x.form = 0x21 then BitVec.ofInt 64 x.const else 0#64⟩

omit hw in
def namesFrom : Nat → List AttrDecl → List (Nat × Nat)
  | _, [] => []
  | i, a :: as => (a.name, i) :: namesFrom (i + 1) as

omit hw in
theorem foldl_addAttr (l : List AttrDecl) : ∀ a : Abbrev, (l.foldl addAttr a).tag = a.tag ∧ (l.foldl addAttr a).hasChildren = a.hasChildren ∧
    (l.foldl addAttr a).forms = a.forms ++ l.map formOf ∧ (l.foldl addAttr a).names = a.names ++ namesFrom a.forms.length l ∧
    ∀ i, (l.foldl addAttr a).nextSib = some i → a.nextSib = some i ∨ ∃ j x, i = a.forms.length + j ∧ l[j]? = some x ∧ x.name = 1 := by
  induction l with
  | nil => intro a; exact ⟨rfl, rfl, by simp, by simp [namesFrom], fun i h => .inl h⟩
  | cons x l ih =>
    intro a
    rw [List.foldl_cons]
    obtain ⟨h1, h2, h3, h4, h5⟩ := ih (addAttr a x)
    refine ⟨h1, h2, ?_, ?_, ?_⟩
    · rw [h3]; simp [addAttr, formOf]
    · rw [h4]; simp [addAttr, namesFrom]
    · intro i hi
      rcases h5 i hi with h | ⟨j, y, e1, e2, e3⟩
      · unfold addAttr at h
        simp only at h
        split at h
        · rename_i hx
          injection h with h
          exact .inr ⟨0, x, by omega, rfl, hx⟩
        · exact .inl h
      · refine .inr ⟨j + 1, y, ?_, by simpa using e2, e3⟩
        rw [e1]; simp [addAttr]; omega

omit hw in
theorem abbrevOf_is (x : DieDecl) : (abbrevOf x).tag = x.tag ∧ (abbrevOf x).hasChildren = x.children ∧ (abbrevOf x).forms = x.attrs.map formOf ∧
    (abbrevOf x).names = namesFrom 0 x.attrs ∧ ∀ i, (abbrevOf x).nextSib = some i → ∃ a, x.attrs[i]? = some a ∧ a.name = 1 := by
  obtain ⟨h1, h2, h3, h4, h5⟩ := foldl_addAttr x.attrs ⟨x.tag, x.children, [], [], none⟩
  refine ⟨h1, h2, by simpa [abbrevOf] using h3, by simpa [abbrevOf] using h4, ?_⟩
  intro i hi
  rcases h5 i hi with h | ⟨j, y, e1, e2, e3⟩
  · cases h
  · have : i = j := by simpa using e1
    subst this
    exact ⟨y, e2, e3⟩

theorem values_read {u : Die.Unit} {sz : Sizes} (hu : SizesOf u sz) (end_ : Nat) (as : List AttrDecl) : ∀ (vs : List AttrVal) (i off : Nat) (rest : List Byte),
    ValsFit sz end_ as vs → (∀ a ∈ as, FormOk sz a.form) → d.drop off = encodeVals sz as vs ++ rest →
    ∃ ws, readValues d u (as.map formOf) off = .ok (ws, off + (encodeVals sz as vs).length) ∧ AttrsShow d sz i as vs (namesFrom i as) (as.map formOf) ws := by
  induction as with
  | nil =>
    intro vs i off rest hv _ h
    cases vs with
    | nil => exact ⟨[], rfl, trivial⟩
    | cons => exact hv.elim
  | cons a as ih =>
    intro vs i off rest hv hf h
    cases vs with
    | nil => exact hv.elim
    | cons v vs =>
      obtain ⟨⟨⟨k, hk, hfit⟩, _⟩, hv'⟩ := hv
      rw [encodeVals, hk] at h ⊢
      simp only at h ⊢
      rw [List.append_assoc] at h
      obtain ⟨w, h1, h2⟩ := value_reads hw hu a.form (formOf a).value a.const k v (hf a (by simp)) hk hfit
        (fun e => by simp [formOf, e]) h
      have h1 : readValue d u (formOf a) off = _ := h1
      obtain ⟨ws, h3, h4⟩ := ih vs (i + 1) _ rest hv' (fun b hb => hf b (by simp [hb])) (drop_prefix h)
      refine ⟨w :: ws, ?_, rfl, rfl, ⟨k, hk, h2⟩, h4⟩
      rw [List.map_cons, readValues, Parse.bind_ok h1, Parse.bind_ok h3, List.length_append, Nat.add_assoc]
      rfl

omit hw in
theorem attrsShow_at {sz : Sizes} : ∀ {as : List AttrDecl} {i : Nat} {vs : List AttrVal} {ns : List (Nat × Nat)} {fs : List FormEntry} {ws : List Value},
    AttrsShow d sz i as vs ns fs ws → ∀ {j : Nat} {a : AttrDecl}, as[j]? = some a →
    ∃ v f w k, vs[j]? = some v ∧ fs[j]? = some f ∧ f.form = a.form ∧ ws[j]? = some w ∧ ns[j]? = some (a.name, i + j) ∧ formKind a.form = some k ∧ Means d sz k v w := by
  intro as
  induction as with
  | nil => intro i vs ns fs ws _ j a h; simp at h
  | cons b as ih =>
    intro i vs ns fs ws hs j a h
    cases vs with
    | nil => exact hs.elim
    | cons v vs =>
    cases ns with
    | nil => exact hs.elim
    | cons n ns =>
    cases fs with
    | nil => exact hs.elim
    | cons f fs =>
    cases ws with
    | nil => exact hs.elim
    | cons w ws =>
    obtain ⟨h1, h2, ⟨k, h3, h4⟩, h5⟩ := hs
    cases j with
    | zero =>
      simp at h
      subst h
      exact ⟨v, f, w, k, rfl, rfl, h2, rfl, by rw [h1]; rfl, h3, h4⟩
    | succ j =>
      obtain ⟨v', f', w', k', e1, e2, e3, e4, e5, e6, e7⟩ := ih h5 (by simpa using h)
      exact ⟨v', f', w', k', by simpa using e1, by simpa using e2, e3, by simpa using e4, by simp [e5]; omega, e6, e7⟩

omit hw in
theorem valsFit_at {sz : Sizes} {end_ : Nat} : ∀ {as : List AttrDecl} {vs : List AttrVal}, ValsFit sz end_ as vs → ∀ {j : Nat} {a : AttrDecl} {v : AttrVal},
    as[j]? = some a → vs[j]? = some v → AttrFits sz end_ a v := by
  intro as
  induction as with
  | nil => intro vs _ j a v h; simp at h
  | cons b as ih =>
    intro vs hv j a v h h'
    cases vs with
    | nil => exact hv.elim
    | cons w vs =>
      cases j with
      | zero =>
        simp at h h'
        subst h; subst h'
        exact hv.1
      | succ j => exact ih hv.2 (by simpa using h) (by simpa using h')

omit hw in
theorem localRef_means {sz : Sizes} {form : Nat} (h : IsLocalRef form) {k : FormKind} (hk : formKind form = some k) {n : Nat} {w : Value}
    (hm : Means d sz k (.num n) w) : ∃ x : BitVec 64, w = .word x ∧ x.toNat = n := by
  obtain ⟨h1, h2⟩ := h
  have : form = 0x11 ∨ form = 0x12 ∨ form = 0x13 ∨ form = 0x14 ∨ form = 0x15 := by omega
  rcases this with rfl | rfl | rfl | rfl | rfl <;> (injection hk with hk; subst hk; exact hm)

/-- An entry is found where it is. -/
theorem entry_scan {u : Die.Unit} {sz : Sizes} (hu : SizesOf u sz) (hi : u.info = d) {decls : List DieDecl} (hwf : ∀ x ∈ decls, x.WF)
    (hp : decls.Pairwise (fun a b => a.code ≠ b.code)) (hf : ∀ x ∈ decls, ∀ a ∈ x.attrs, FormOk sz a.form)
    (ha : u.abbrevs = decls.map (fun x => (x.code, abbrevOf x))) {e : DieEntry} (hm : e.decl ∈ decls) {end_ : Nat}
    (hv : ValsFit sz end_ e.decl.attrs e.vals) (hend : u.offset + end_ < 2 ^ 64) {off : Nat} {rest : List Byte} (h : d.drop off = e.encode sz ++ rest) :
    ∃ ws sib, scan u off = .ok (.entry (abbrevOf e.decl) ws sib (off + (e.encode sz).length)) ∧ (sib = 0 ∨ sib = u.offset + end_) ∧
      AttrsShow d sz 0 e.decl.attrs e.vals (abbrevOf e.decl).names (abbrevOf e.decl).forms ws := by
  have hx := hwf _ hm
  have hc := hx.code
  obtain ⟨_, _, a3, a4, a5⟩ := abbrevOf_is e.decl
  unfold DieEntry.encode at h ⊢
  rw [List.append_assoc] at h
  obtain ⟨ws, h1, h2⟩ := values_read hw hu end_ e.decl.attrs e.vals 0 _ rest hv (hf _ hm) (drop_prefix h)
  have hsib : ∃ sib, siblingOf u (abbrevOf e.decl) ws (off + (encodeU e.decl.code).length + (encodeVals sz e.decl.attrs e.vals).length) =
      .ok (sib, off + (encodeU e.decl.code).length + (encodeVals sz e.decl.attrs e.vals).length) ∧ (sib = 0 ∨ sib = u.offset + end_) := by
    unfold siblingOf
    cases hn : (abbrevOf e.decl).nextSib with
    | none => exact ⟨0, rfl, .inl rfl⟩
    | some i =>
      obtain ⟨a, e1, e2⟩ := a5 i hn
      obtain ⟨v, f, w, k, g1, g2, g3, g4, g5, g6, g7⟩ := attrsShow_at h2 e1
      obtain ⟨_, hs⟩ := valsFit_at hv e1 g1
      obtain ⟨s1, s2⟩ := hs e2
      subst s2
      obtain ⟨x, hx1, hx2⟩ := localRef_means s1 g6 g7
      subst hx1
      simp only
      rw [g4]
      refine ⟨_, rfl, .inr ?_⟩
      rw [BitVec.toNat_add, BitVec.toNat_ofNat, hx2, Nat.add_mod_mod, Nat.mod_eq_of_lt (by omega)]
      omega
  obtain ⟨sib, h3, h4⟩ := hsib
  refine ⟨ws, sib, ?_, h4, by rw [a4, a3]; exact h2⟩
  unfold scan
  rw [hi, reads_uleb hw e.decl.code hc.2 off _ h, Res.bind_ok]
  simp only
  rw [if_neg (by
      intro e
      have := congrArg BitVec.toNat e
      rw [word64 _ hc.2] at this
      simp at this; omega), word64 _ hc.2, ha, findAbbrev_mem hp hm]
  simp only
  rw [a3, h1, Res.bind_ok]
  simp only
  rw [h3, Res.bind_ok, List.length_append, Nat.add_assoc]

theorem end_scan {u : Die.Unit} (hi : u.info = d) {off : Nat} {rest : List Byte} (h : d.drop off = 0#8 :: rest) : scan u off = .ok (.terminator (off + 1)) := by
  have h0 := reads_uleb hw 0 (by decide)
  rw [encodeU_small 0 (by decide)] at h0
  unfold scan
  rw [hi, h0 off rest h, Res.bind_ok]
  rfl

/-! ### Trees -/

omit hw in
theorem entry_ne (sz : Sizes) (e : DieEntry) : 0 < (e.encode sz).length := by
  unfold DieEntry.encode
  rw [List.length_append]
  have := List.length_pos_iff.2 (encodeU_ne e.decl.code)
  omega

omit hw in
theorem forest_ne (sz : Sizes) (f : Forest DieEntry) : 0 < (f.encode sz).length := by
  cases f with
  | done => simp [Forest.encode]
  | leaf e r => have := entry_ne sz e; simp [Forest.encode]; omega
  | node e k r => have := entry_ne sz e; simp [Forest.encode]; omega

section
variable {u : Die.Unit} {sz : Sizes} {decls : List DieDecl} (hu : SizesOf u sz) (hi : u.info = d) (hwf : ∀ x ∈ decls, x.WF)
    (hp : decls.Pairwise (fun a b => a.code ≠ b.code)) (hf : ∀ x ∈ decls, ∀ a ∈ x.attrs, FormOk sz a.form)
    (ha : u.abbrevs = decls.map (fun x => (x.code, abbrevOf x))) (hstop : u.stop < 2 ^ 64)
include hu hi hwf hp hf ha hstop

theorem laid_forest (f : Forest DieEntry) : ∀ (pos : Nat) (rest : List Byte), f.WF sz decls pos → d.drop (u.offset + pos) = f.encode sz ++ rest → 0 < pos →
    u.offset + pos + (f.encode sz).length ≤ u.stop →
    ∃ g, Laid u g ∧ g.pos = u.offset + pos ∧ g.stopOf = u.offset + pos + (f.encode sz).length ∧
      Forest.Rel (DieShows d sz) g.seen (f.place sz (u.offset + pos)) := by
  induction f with
  | done =>
    intro pos rest _ h h0 hs
    simp only [Forest.encode, List.length_cons, List.length_nil] at hs h
    exact ⟨.done (u.offset + pos) (u.offset + pos + 1), ⟨⟨by omega, by omega, by omega⟩, by omega, end_scan hw hi h⟩, rfl, rfl, .done⟩
  | leaf e r ih =>
    intro pos rest hf' h h0 hs
    obtain ⟨f1, f2, f3, f4⟩ := hf'
    simp only [Forest.encode, List.length_append] at hs h ⊢
    rw [List.append_assoc] at h
    have hne := entry_ne sz e
    obtain ⟨ws, sib, s1, s2, s3⟩ := entry_scan hw hu hi hwf hp hf ha f1 f3 (by omega) h
    obtain ⟨g, g1, g2, g3, g4⟩ := ih (pos + (e.encode sz).length) rest f4 (by rw [← Nat.add_assoc]; exact drop_prefix h) (by omega) (by omega)
    refine ⟨.leaf ⟨u.offset + pos, abbrevOf e.decl, ws, sib, u.offset + pos + (e.encode sz).length⟩ g, ?_, rfl, ?_, ?_⟩
    · refine ⟨⟨?_, ?_, ?_⟩, ?_, s1, ?_, ?_, g1⟩
      · show u.offset + pos ≠ 0; omega
      · show u.offset ≤ u.offset + pos; omega
      · show u.offset + pos < u.stop; omega
      · show u.offset + pos < u.offset + pos + (e.encode sz).length; omega
      · rw [(abbrevOf_is e.decl).2.1, f2]
      · rw [g2]; simp only; omega
    · show g.stopOf = _
      rw [g3]; omega
    · refine .leaf ⟨rfl, (abbrevOf_is e.decl).1, (abbrevOf_is e.decl).2.1, s3⟩ ?_
      rw [Nat.add_assoc]; exact g4
  | node e k r ihk ihr =>
    intro pos rest hf' h h0 hs
    obtain ⟨f1, f2, f3, f4, f5⟩ := hf'
    simp only [Forest.encode, List.length_append] at hs h ⊢
    rw [List.append_assoc, List.append_assoc] at h
    have hne := entry_ne sz e
    obtain ⟨ws, sib, s1, s2, s3⟩ := entry_scan hw hu hi hwf hp hf ha f1 f3 (by omega) h
    obtain ⟨g, g1, g2, g3, g4⟩ := ihk (pos + (e.encode sz).length) _ f4 (by rw [← Nat.add_assoc]; exact drop_prefix h) (by omega) (by omega)
    obtain ⟨q, q1, q2, q3, q4⟩ := ihr (pos + (e.encode sz).length + (k.encode sz).length) rest f5
      (by rw [← Nat.add_assoc, ← Nat.add_assoc]; exact drop_prefix (drop_prefix h)) (by omega) (by omega)
    refine ⟨.node ⟨u.offset + pos, abbrevOf e.decl, ws, sib, u.offset + pos + (e.encode sz).length⟩ g q, ?_, rfl, ?_, ?_⟩
    · refine ⟨⟨?_, ?_, ?_⟩, ?_, s1, ?_, ?_, g1, ?_, ?_, q1⟩
      · show u.offset + pos ≠ 0; omega
      · show u.offset ≤ u.offset + pos; omega
      · show u.offset + pos < u.stop; omega
      · show u.offset + pos < u.offset + pos + (e.encode sz).length; omega
      · rw [(abbrevOf_is e.decl).2.1, f2]
      · rw [g2]; simp only; omega
      · rcases s2 with s2 | s2
        · exact .inl s2
        · refine .inr ?_
          show sib = g.stopOf
          rw [s2, g3]; omega
      · rw [q2, g3]; omega
    · show q.stopOf = _
      rw [q3]; omega
    · refine .node ⟨rfl, (abbrevOf_is e.decl).1, (abbrevOf_is e.decl).2.1, s3⟩ ?_ ?_
      · rw [Nat.add_assoc]; exact g4
      · rw [Nat.add_assoc, Nat.add_assoc, ← Nat.add_assoc pos]; exact q4

theorem laid_tree (t : DieTree DieEntry) (pos : Nat) (rest : List Byte) (ht : t.WF sz decls pos) (h : d.drop (u.offset + pos) = t.encode sz ++ rest) (h0 : 0 < pos)
    (hs : u.offset + pos + (t.encode sz).length ≤ u.stop) (hr : u.rootOffset = u.offset + pos) :
    ∃ g, LaidTree u g ∧ DieTree.Rel (DieShows d sz) g.seen (t.place sz (u.offset + pos)) := by
  obtain ⟨e, kids⟩ := t
  obtain ⟨f1, f2, f3⟩ := ht
  have hne := entry_ne sz e
  unfold DieTree.encode at h hs f2
  simp only [List.length_append] at hs h f2
  rw [List.append_assoc] at h
  obtain ⟨ws, sib, s1, s2, s3⟩ := entry_scan hw hu hi hwf hp hf ha f1 f2 (by omega) h
  cases kids with
  | none =>
    refine ⟨⟨⟨u.offset + pos, abbrevOf e.decl, ws, sib, u.offset + pos + (e.encode sz).length⟩, none⟩, ⟨hr.symm, ⟨?_, ?_, ?_⟩, ?_, s1, ?_⟩, ?_⟩
    · show u.offset + pos ≠ 0; omega
    · show u.offset ≤ u.offset + pos; omega
    · show u.offset + pos < u.stop; omega
    · show u.offset + pos < u.offset + pos + (e.encode sz).length; omega
    · show (abbrevOf e.decl).hasChildren = false
      rw [(abbrevOf_is e.decl).2.1]; exact f3
    · exact .leaf ⟨rfl, (abbrevOf_is e.decl).1, (abbrevOf_is e.decl).2.1, s3⟩
  | some f =>
    simp only at f3 h hs
    obtain ⟨g, g1, g2, g3, g4⟩ := laid_forest hw hu hi hwf hp hf ha hstop f (pos + (e.encode sz).length) rest f3.2
      (by rw [← Nat.add_assoc]; exact drop_prefix h) (by omega) (by omega)
    refine ⟨⟨⟨u.offset + pos, abbrevOf e.decl, ws, sib, u.offset + pos + (e.encode sz).length⟩, some g⟩, ⟨hr.symm, ⟨?_, ?_, ?_⟩, ?_, s1, ?_, ?_, g1⟩, ?_⟩
    · show u.offset + pos ≠ 0; omega
    · show u.offset ≤ u.offset + pos; omega
    · show u.offset + pos < u.stop; omega
    · show u.offset + pos < u.offset + pos + (e.encode sz).length; omega
    · rw [(abbrevOf_is e.decl).2.1]; exact f3.1
    · rw [g2]; simp only; omega
    · refine .node ⟨rfl, (abbrevOf_is e.decl).1, (abbrevOf_is e.decl).2.1, s3⟩ ?_
      rw [Nat.add_assoc]; exact g4

end

/-! ### The header -/

omit hw in
theorem len_field (x : DieUnit) (hx : x.WF) (hs : UnitReadable x) : Reads d (getlength d) x.lengthField (x.body.length, x.offSize) := by
  intro off rest h
  have hsz := hs.size
  unfold DieUnit.lengthField at h ⊢
  unfold DieUnit.offSize
  cases hf : x.fmt64 with
  | true =>
    rw [hf] at h hsz
    simp only [if_true] at h hsz ⊢
    rw [List.append_assoc] at h
    rw [getlength_64 d rest _ off (by omega) h, List.length_append, leBytes_length, leBytes_length]
  | false =>
    rw [hf] at h hsz
    simp only [Bool.false_eq_true, if_false] at h hsz ⊢
    rw [getlength_32 d rest _ off hsz h, leBytes_length]

omit hw in
theorem reads_bytes (bs : List Byte) : Reads d (getBytes d bs.length) bs bs := fun off rest h => getBytes_prefix d bs rest off h

omit hw in
theorem header_rest (x : DieUnit) (hx : x.WF) (dl : Nat) (hdl : x.version ≠ 2 → dl = x.offSize) :
    Reads d (readHeaderRest d x.version dl)
      (if 5 ≤ x.version then leBytes 1 x.kind ++ (leBytes 1 x.addrSize ++ (leBytes x.offSize x.abbrevPos ++ x.id)) else leBytes x.offSize x.abbrevPos ++ leBytes 1 x.addrSize)
      (x.addrSize, x.abbrevPos) := by
  have ho : x.offSize ≤ 8 := by unfold DieUnit.offSize; split <;> omega
  have hab : x.abbrevPos < 2 ^ 64 := Nat.lt_of_lt_of_le hx.abbrevPos (pow256_le _ ho)
  have has : x.addrSize < 256 := by rcases hx.addrSize with e | e | e | e <;> omega
  have e1 : (BitVec.ofNat 8 x.addrSize).toNat = x.addrSize := by simp; omega
  have e2 := word64 _ hab
  unfold readHeaderRest
  by_cases h5 : 5 ≤ x.version
  · rw [if_pos h5, if_pos h5, hdl (by omega)]
    refine (reads_byte x.kind).bind ?_
    have plain : x.id = [] → Reads d (do
        let addrlen ← getu8 d
        let abbrevOffset ← getuint d x.offSize
        pure (addrlen.toNat, abbrevOffset.toNat)) (leBytes 1 x.addrSize ++ (leBytes x.offSize x.abbrevPos ++ x.id)) (x.addrSize, x.abbrevPos) := by
      intro hid
      rw [hid]
      refine (reads_byte x.addrSize).bind ?_
      have := (reads_uint (d := d) x.offSize x.abbrevPos (by omega) hx.abbrevPos).bind (cs := []) (f := fun o => pure ((BitVec.ofNat 8 x.addrSize).toNat, o.toNat)) (Reads.pure _)
      rw [e1, e2] at this
      rw [e1]; exact this
    have ided : x.id.length = 8 → Reads d (do
        let addrlen ← getu8 d
        let abbrevOffset ← getuint d x.offSize
        let _ ← getBytes d 8
        pure (addrlen.toNat, abbrevOffset.toNat)) (leBytes 1 x.addrSize ++ (leBytes x.offSize x.abbrevPos ++ x.id)) (x.addrSize, x.abbrevPos) := by
      intro hid
      refine (reads_byte x.addrSize).bind ?_
      refine (reads_uint (d := d) x.offSize x.abbrevPos (by omega) hx.abbrevPos).bind ?_
      have := (reads_bytes (d := d) x.id).map (f := fun _ => ((BitVec.ofNat 8 x.addrSize).toNat, (BitVec.ofNat 64 x.abbrevPos).toNat))
      rw [hid] at this
      rwa [e1, e2] at this ⊢
    rcases hx.kind h5 with ⟨hk, hid⟩ | ⟨hk, hid⟩
    · rcases hk with hk | hk <;> rw [hk] <;> exact plain hid
    · rcases hk with hk | hk <;> rw [hk] <;> exact ided hid
  · rw [if_neg h5, if_neg h5]
    have hw' : (if x.version ≤ 2 then 4 else dl) = x.offSize := by
      by_cases h2 : x.version = 2
      · rw [if_pos (by omega)]; unfold DieUnit.offSize; rw [hx.v2 h2]; rfl
      · rw [if_neg (by have := hx.version; omega), hdl h2]
    rw [hw']
    refine (reads_uint (d := d) x.offSize x.abbrevPos (by omega) hx.abbrevPos).bind ?_
    have := (reads_byte (d := d) x.addrSize).map (f := fun b => (b.toNat, (BitVec.ofNat 64 x.abbrevPos).toNat))
    rw [e1, e2] at this
    rw [e2]; exact this

/-- The header is read. -/
theorem header_reads (x : DieUnit) (hx : x.WF) (hs : UnitReadable x) {off : Nat} {rest : List Byte} (h : d.drop off = x.encode ++ rest) :
    ∃ p, readHeader d off = .ok (⟨off, off + x.encode.length, x.version, (if x.version ≤ 2 then 8 else x.offSize), x.addrSize, x.abbrevPos, off + x.rootPos⟩, p) := by
  have hlen := off_le_of_drop h (by
    intro e
    have := congrArg List.length e
    unfold DieUnit.encode DieUnit.lengthField at this
    split at this <;> simp [leBytes_length] at this)
  have hbody : x.encode = x.lengthField ++ x.body := rfl
  rw [hbody, List.length_append] at hlen
  rw [hbody, List.append_assoc] at h
  have h1 := drop_prefix h
  have hsz := hs.size
  have hv : x.version < 2 ^ 16 := by have := hx.version; omega
  have ev : (BitVec.ofNat 16 x.version).toNat = x.version := by rw [BitVec.toNat_ofNat]; exact Nat.mod_eq_of_lt hv
  have h2 : d.drop (off + x.lengthField.length) = leBytes 2 x.version ++ ((if 5 ≤ x.version then leBytes 1 x.kind ++ (leBytes 1 x.addrSize ++ (leBytes x.offSize x.abbrevPos ++ x.id))
   else leBytes x.offSize x.abbrevPos ++ leBytes 1 x.addrSize) ++ (x.tree.encode x.sizes ++ (x.pad ++ rest))) := by
    rw [h1]
    simp only [DieUnit.body, DieUnit.header, List.append_assoc]
  have h3 := drop_prefix h2
  refine ⟨off + x.rootPos, ?_⟩
  unfold readHeader
  have go : ∀ o, getOffset o = .ok (o, o) := fun _ => rfl
  rw [Parse.bind_ok (go off), Parse.bind_ok (len_field x hx hs off _ h)]
  simp only
  rw [Parse.bind_ok (go _), Parse.bind_ok (reads_u16 x.version hv _ _ h2)]
  simp only [ev]
  rw [Parse.bind_ok (header_rest x hx (if x.version ≤ 2 then 8 else x.offSize) (fun h => if_neg (by have := hx.version; omega)) _ _ h3)]
  simp only
  rw [Parse.bind_ok (go _)]
  show Res.ok (_, _) = _
  have hroot : off + x.lengthField.length + (leBytes 2 x.version).length + (if 5 ≤ x.version then leBytes 1 x.kind ++ (leBytes 1 x.addrSize ++ (leBytes x.offSize x.abbrevPos ++ x.id))
   else leBytes x.offSize x.abbrevPos ++ leBytes 1 x.addrSize).length = off + x.rootPos := by
    unfold DieUnit.rootPos DieUnit.header
    rw [List.length_append]; omega
  rw [hroot]
  have hl : x.body.length < 2 ^ 32 := by split at hsz <;> omega
  rw [Nat.mod_eq_of_lt hl, Nat.mod_eq_of_lt (by omega), hbody, List.length_append, Nat.add_assoc]

end

end Pstack.Props
