import Verif.Spec.StackUsers
import Verif.Props.Segments
import Verif.Props.Cfi
/-
Property theorems C95: the program `stackusers` (Spec/StackUsers.lean).
-/
namespace Pstack.Props
open Pstack.Dwarf Pstack.Reader Pstack.Elf Pstack.Spec Pstack.StackUsers
open Pstack.Args (say dec)

/-! ### The largest offset of a row -/

/-- The offset of one rule. -/
theorem deeper_spec (m : Int) (u : RegUnwind) : m ≤ deeper m u ∧ (u.type = .offset → u.w0.toInt ≤ deeper m u) ∧ (deeper m u = m ∨ (u.type = .offset ∧ deeper m u = u.w0.toInt)) := by
  unfold deeper
  split
  · rename_i h
    refine ⟨by omega, fun _ => by omega, ?_⟩
    by_cases hm : m ≤ u.w0.toInt
    · right; exact ⟨h, by omega⟩
    · left; omega
  · rename_i h
    exact ⟨by omega, fun h' => absurd h' h, .inl rfl⟩

/-- The step of the loop over the registers. -/
def regDeeper (f : CallFrame) (m : Int) (r : BitVec 32) : Int :=
  match f.registers r with
  | none => m
  | some u => deeper m u

theorem regDeeper_spec (f : CallFrame) (m : Int) (r : BitVec 32) : m ≤ regDeeper f m r ∧ (∀ u, f.registers r = some u → u.type = .offset → u.w0.toInt ≤ regDeeper f m r) ∧
    (regDeeper f m r = m ∨ ∃ u, f.registers r = some u ∧ u.type = .offset ∧ regDeeper f m r = u.w0.toInt) := by
  unfold regDeeper
  cases h : f.registers r with
  | none => exact ⟨Int.le_refl _, (fun u hu => nomatch hu), .inl rfl⟩
  | some u =>
    obtain ⟨h1, h2, h3⟩ := deeper_spec m u
    refine ⟨h1, ?_, ?_⟩
    · intro v hv ht
      cases hv
      exact h2 ht
    · rcases h3 with h3 | ⟨h3, h4⟩
      · exact .inl h3
      · exact .inr ⟨u, rfl, h3, h4⟩

/-- The loop over registers. -/
theorem regs_deeper (f : CallFrame) : ∀ (l : List (BitVec 32)) (m : Int), m ≤ l.foldl (regDeeper f) m ∧
    (∀ r ∈ l, ∀ u, f.registers r = some u → u.type = .offset → u.w0.toInt ≤ l.foldl (regDeeper f) m) ∧
    (l.foldl (regDeeper f) m = m ∨ ∃ r u, f.registers r = some u ∧ u.type = .offset ∧ l.foldl (regDeeper f) m = u.w0.toInt)
  | [], m => ⟨Int.le_refl _, (fun r hr => nomatch hr), .inl rfl⟩
  | r :: l, m => by
      obtain ⟨a1, a2, a3⟩ := regDeeper_spec f m r
      obtain ⟨b1, b2, b3⟩ := regs_deeper f l (regDeeper f m r)
      rw [List.foldl_cons]
      refine ⟨Int.le_trans a1 b1, ?_, ?_⟩
      · intro q hq u hu ht
        rcases List.mem_cons.1 hq with rfl | hq
        · exact Int.le_trans (a2 u hu ht) b1
        · exact b2 q hq u hu ht
      · rcases b3 with b3 | b3
        · rw [b3]
          rcases a3 with a3 | ⟨u, a3⟩
          · exact .inl a3
          · exact .inr ⟨r, u, a3⟩
        · exact .inr b3

theorem key_mem (r : BitVec 32) : r ∈ registerKeys := by
  unfold registerKeys
  rw [List.mem_map]
  exact ⟨r.toNat, List.mem_range.2 r.isLt, BitVec.ofNat_toNat_of r⟩
where
  BitVec.ofNat_toNat_of (r : BitVec 32) : BitVec.ofNat 32 r.toNat = r := by simp

/-- The number `x` is one of the frame's offsets. -/
def FrameOffset (f : CallFrame) (x : Int) : Prop := (f.cfaValue.type = .offset ∧ f.cfaValue.w0.toInt = x) ∨ ∃ r u, f.registers r = some u ∧ u.type = .offset ∧ u.w0.toInt = x

theorem deepest_spec (m : Int) (f : CallFrame) : m ≤ deepest m f ∧ (∀ x, FrameOffset f x → x ≤ deepest m f) ∧ (deepest m f = m ∨ FrameOffset f (deepest m f)) := by
  have e : deepest m f = deeper (registerKeys.foldl (regDeeper f) m) f.cfaValue := rfl
  rw [e]
  obtain ⟨a1, a2, a3⟩ := regs_deeper f registerKeys m
  obtain ⟨b1, b2, b3⟩ := deeper_spec (registerKeys.foldl (regDeeper f) m) f.cfaValue
  refine ⟨Int.le_trans a1 b1, ?_, ?_⟩
  · rintro x (⟨h1, rfl⟩ | ⟨r, u, h1, h2, rfl⟩)
    · exact b2 h1
    · exact Int.le_trans (a2 r (key_mem r) u h1 h2) b1
  · rcases b3 with b3 | ⟨b3, b4⟩
    · rw [b3]
      rcases a3 with a3 | ⟨r, u, a3, a4, a5⟩
      · exact .inl a3
      · exact .inr (.inr ⟨r, u, a3, a4, a5.symm⟩)
    · exact .inr (.inl ⟨b3, b4.symm⟩)

/-- A rule with an offset is stored as such, and nothing else is. -/
theorem denotes_offset {d : List Byte} {u : RegUnwind} {rule : Rule} (h : Denotes d u rule) (ht : u.type = .offset) : ∃ n, rule = .offset n ∧ u.w0 = BitVec.ofInt 64 n := by
  cases rule <;> simp only [Denotes] at h
  case offset n => exact ⟨n, rfl, h.2⟩
  all_goals first
    | (rw [h] at ht; cases ht)
    | (rw [h.1] at ht; cases ht)

theorem denotes_cfa {d : List Byte} {f : CallFrame} {rule : CfaRule} (h : DenotesCfa d f rule) (ht : f.cfaValue.type = .offset) : ∃ r n, rule = .regOff r n ∧ f.cfaValue.w0 = BitVec.ofInt 64 n := by
  cases rule <;> simp only [DenotesCfa] at h
  case regOff r n => exact ⟨r, n, rfl, h.2.2⟩
  all_goals first
    | (rw [h] at ht; cases ht)
    | (rw [h.1] at ht; cases ht)

theorem int_64 {n : Int} (h : -2 ^ 63 ≤ n ∧ n < 2 ^ 63) : (BitVec.ofInt 64 n).toInt = n := by
  rw [BitVec.toInt_ofInt]
  apply Int.bmod_eq_of_le <;> omega

/-- The offsets of a frame are those of the row it holds. -/
theorem frame_offsets {d : List Byte} {f : CallFrame} {row : Row} (h : Pstack.Spec.Holds d f row) (hfit : ∀ x, RowOffset row x → -2 ^ 63 ≤ x ∧ x < 2 ^ 63) (x : Int) : FrameOffset f x ↔ RowOffset row x := by
  constructor
  · rintro (⟨h1, rfl⟩ | ⟨r, u, h1, h2, rfl⟩)
    · obtain ⟨r, n, e1, e2⟩ := denotes_cfa h.1 h1
      have := hfit n (.inl ⟨r, e1⟩)
      rw [e2, int_64 this]
      exact .inl ⟨r, e1⟩
    · have hd := h.2 r
      rw [CallFrame.get, h1, Option.getD_some] at hd
      obtain ⟨n, e1, e2⟩ := denotes_offset hd h2
      have := hfit n (.inr ⟨r, e1⟩)
      rw [e2, int_64 this]
      exact .inr ⟨r, e1⟩
  · intro hx
    have hf := hfit x hx
    rcases hx with ⟨r, hr⟩ | ⟨r, hr⟩
    · have hc := h.1
      rw [hr] at hc
      obtain ⟨_, h2, h3⟩ := hc
      exact .inl ⟨h2, by rw [h3, int_64 hf]⟩
    · have hd := h.2 r
      rw [hr] at hd
      obtain ⟨h1, h2⟩ := hd
      rw [CallFrame.get] at h1 h2
      cases hu : f.registers r with
      | none =>
        rw [hu] at h1
        cases h1
      | some u =>
        rw [hu, Option.getD_some] at h1 h2
        exact .inr ⟨r, u, hu, h1, by rw [h2, int_64 hf]⟩

/-! ### The run of the program -/

theorem watch_spec (d : List Byte) (hw : d.length < W64) (cie : CIE) (k : Factors) (hk1 : cie.codeAlign.toNat = k.code) (hk2 : cie.dataAlign.toInt = k.data)
    (df : CallFrame) (ini : Row) (hini : Pstack.Spec.Holds d df ini) (rest : List Byte) (is : List Insn) :
    ∀ (fuel off : Nat) (st : ExecState) (s : TabState) (t : List (Nat × Row)) (m : Int), StRel d st s → (∀ i ∈ is, i.WF) → is.length < fuel → d.drop off = encodeInsns is ++ rest →
      rows k ini s is = some t → (∀ row x, InForce k ini s is row → RowOffset row x → -2 ^ 63 ≤ x ∧ x < 2 ^ 63) →
      ∃ m' a, watch d cie df (off + (encodeInsns is).length) fuel st off m = .ok (m', a) ∧ t.getLast?.map Prod.fst = some a.toNat ∧ m ≤ m' ∧
        (∀ row x, InForce k ini s is row → RowOffset row x → x ≤ m') ∧ (m' = m ∨ ∃ row, InForce k ini s is row ∧ RowOffset row m') := by
  induction is with
  | nil =>
    intro fuel off st s t m hs _ hfuel hd ht hfit
    cases fuel with
    | zero => simp at hfuel
    | succ fuel =>
      obtain ⟨a1, a2, a3⟩ := deepest_spec m st.frame
      have ho := frame_offsets hs.row (fun x hx => hfit _ x (.now s []) hx)
      refine ⟨deepest m st.frame, st.addr, ?_, ?_, a1, ?_, ?_⟩
      · rw [watch, if_pos (by simp [encodeInsns])]
      · simp only [rows, Option.some.injEq] at ht
        subst ht
        simp [hs.loc]
      · intro row x hr hx
        cases hr
        exact a2 x ((ho x).2 hx)
      · rcases a3 with a3 | a3
        · exact .inl a3
        · exact .inr ⟨s.row, .now s [], (ho _).1 a3⟩
  | cons i is ih =>
    intro fuel off st s t m hs hwf hfuel hd ht hfit
    cases fuel with
    | zero => simp at hfuel
    | succ fuel =>
      have hlen : (encodeInsns (i :: is)).length = i.encode.length + (encodeInsns is).length := by
        simp [encodeInsns]
      have hpos := List.length_pos_iff.2 (encode_ne_nil i)
      simp only [rows] at ht
      cases hst : s.step k ini i with
      | none => rw [hst] at ht; simp at ht
      | some s' =>
        rw [hst] at ht
        dsimp only at ht
        cases hrs : rows k ini s' is with
        | none => rw [hrs] at ht; simp at ht
        | some t' =>
          rw [hrs] at ht
          simp only [Option.some.injEq] at ht
          have hd' : d.drop off = i.encode ++ (encodeInsns is ++ rest) := by
            rw [hd]; simp [encodeInsns]
          obtain ⟨st', g1, g2⟩ := execOne_insn d _ hw cie k hk1 hk2 df ini hini st s s' hs i (hwf i List.mem_cons_self) off hd' hst
          have hd2 := drop_prefix hd'
          obtain ⟨a1, a2, a3⟩ := deepest_spec m st.frame
          have ho := frame_offsets hs.row (fun x hx => hfit _ x (.now s _) hx)
          obtain ⟨m', a, r1, r2, r3, r4, r5⟩ := ih fuel (off + i.encode.length) st' s' t' (deepest m st.frame) g2 (fun j hj => hwf j (List.mem_cons_of_mem _ hj))
            (by simp at hfuel; omega) hd2 hrs (fun row x h1 h2 => hfit row x (.later hst h1) h2)
          refine ⟨m', a, ?_, ?_, Int.le_trans a1 r3, ?_, ?_⟩
          · rw [watch, if_neg (by omega), g1, Res.bind_ok, hlen, ← Nat.add_assoc]
            exact r1
          · rw [← ht]
            split
            · rw [List.getLast?_cons]
              cases hl : t'.getLast? with
              | none => rw [hl] at r2; cases r2
              | some z =>
                rw [hl] at r2
                exact r2
            · exact r2
          · intro row x hr hx
            cases hr with
            | now => exact Int.le_trans (a2 x ((ho x).2 hx)) r3
            | later h1 h2 =>
              rw [hst] at h1
              cases h1
              exact r4 row x h2 hx
          · rcases r5 with r5 | ⟨row, h1, h2⟩
            · rw [r5]
              rcases a3 with a3 | a3
              · exact .inl a3
              · exact .inr ⟨s.row, .now s _, (ho _).1 a3⟩
            · exact .inr ⟨row, .later hst h1, h2⟩

/-- The figures of an entry, for code at any address. -/
theorem stackUse_spec {d : List Byte} {f : FDE} {start : Nat} (hs : start < 2 ^ 64) {m : Int} {last : Nat} (h : Figures d f start m last) : ∃ a, stackUse d f start = .ok (m, a) ∧ a.toNat = last := by
  obtain ⟨ci, fi, ini, t, hp, ht, hfit, hm, hl, _⟩ := h
  obtain ⟨rest1, hc1⟩ := hp.common
  obtain ⟨rest2, hf1⟩ := hp.own
  have l1 : ci.length < d.length + 1 := by
    have := encodeInsns_length ci
    have := congrArg List.length hc1
    simp at this; omega
  have l2 : fi.length < d.length + 1 := by
    have := encodeInsns_length fi
    have := congrArg List.length hf1
    simp at this; omega
  obtain ⟨df, g1, g2⟩ := execLoop_final d hp.size f.cie (factorsOf f) rfl rfl CallFrame.init
    Row.init (holds_init d) rest1 ci (d.length + 1) f.cie.instructions ⟨0#64, CallFrame.init, []⟩ ⟨0, Row.init, []⟩ ini
    ⟨rfl, holds_init d, trivial⟩ hp.commonFits l1 hc1 hp.initial
  have hst : (BitVec.ofNat 64 start).toNat = start := by
    rw [BitVec.toNat_ofNat]; exact Nat.mod_eq_of_lt hs
  obtain ⟨m', a, r1, r2, r3, r4, r5⟩ := watch_spec d hp.size f.cie (factorsOf f) rfl rfl df ini g2 rest2 fi (d.length + 1) f.instructions ⟨BitVec.ofNat 64 start, df, []⟩ ⟨start, ini, []⟩ t 0
    ⟨hst, g2, trivial⟩ hp.ownFits l2 hf1 ht hfit
  have e : m' = m := by
    have h1 : m' ≤ m := by
      rcases r5 with r5 | ⟨row, h1, h2⟩
      · rw [r5]; exact hm.nonneg
      · exact hm.above row m' h1 h2
    have h2 : m ≤ m' := by
      rcases hm.reached with h | ⟨row, h1, h2⟩
      · rw [h]; exact r3
      · exact r4 row m h1 h2
    omega
  subst e
  refine ⟨a, ?_, ?_⟩
  · unfold stackUse FDE.defaultFrame Dwarf.execInsns
    rw [hp.commonEnd, g1, Res.bind_ok, hp.ownEnd]
    exact r1
  · rw [hl] at r2
    exact (Option.some.inj r2).symm

theorem loc_below {k : Factors} {ini : Row} : ∀ (is : List Insn) (s : TabState) (t : List (Nat × Row)) (last : Nat), rows k ini s is = some t → t.getLast?.map Prod.fst = some last → s.loc ≤ last
  | [], s, t, last, h, hl => by
      simp only [rows, Option.some.injEq] at h
      subst h
      simp at hl
      omega
  | i :: is, s, t, last, h, hl => by
      simp only [rows] at h
      cases hst : s.step k ini i with
      | none => rw [hst] at h; simp at h
      | some s' =>
        rw [hst] at h
        dsimp only at h
        cases hrs : rows k ini s' is with
        | none => rw [hrs] at h; simp at h
        | some t' =>
          rw [hrs] at h
          simp only [Option.some.injEq] at h
          subst h
          have hmono := (step_loc hst).1
          have hne : t'.getLast?.map Prod.fst = some last := by
            split at hl
            · rw [List.getLast?_cons] at hl
              cases hz : t'.getLast? with
              | none =>
                exfalso
                rw [List.getLast?_eq_none_iff] at hz
                subst hz
                cases is with
                | nil => simp [rows] at hrs
                | cons j js =>
                  simp only [rows] at hrs
                  split at hrs
                  · cases hrs
                  · split at hrs
                    · cases hrs
                    · rename_i t2 ht2
                      simp only [Option.some.injEq] at hrs
                      split at hrs
                      · cases hrs
                      · subst hrs
                        exact rows_ne_nil js _ ht2
              | some z =>
                rw [hz] at hl
                exact hl
            · exact hl
          exact Nat.le_trans hmono (loc_below is s' t' last hrs hne)
where
  rows_ne_nil {k : Factors} {ini : Row} : ∀ (is : List Insn) (s : TabState), rows k ini s is = some [] → False
    | [], s, h => by simp [rows] at h
    | j :: js, s, h => by
        simp only [rows] at h
        split at h
        · cases h
        · split at h
          · cases h
          · rename_i t2 ht2
            simp only [Option.some.injEq] at h
            split at h
            · cases h
            · subst h
              exact rows_ne_nil js _ ht2

/-! ### The lines -/

theorem and_one (n : Nat) : n &&& 1 = 0 ↔ n.testBit 0 = false := by
  rw [Nat.and_one_is_mod, Nat.testBit_zero]
  simp only [decide_eq_false_iff_not]
  omega

variable {img : Image} {file : List Phdr} {t : DynTable} {funcs : List (List Byte)}

/-- The line of a symbol whose entry is found, wherever that starts. -/
theorem line_spec {s : Sym} (hv : s.value < 2 ^ 64) (hn : img.tab.nameOf s = .ok (t.nameOf s)) {d : List Byte} {f : FDE} (he : EntryFor img s.value d f) {m : Int} {last : Nat}
    (hf : Figures d f s.value m last) : userLine img s = .ok (usersLine m (last - s.value + 1) s.size (t.nameOf s)) := by
  obtain ⟨find, h1, h2⟩ := he
  obtain ⟨a, g1, g2⟩ := stackUse_spec hv hf
  obtain ⟨ci, fi, ini, tt, hp, ht, hfit, hm, hl, hlast⟩ := hf
  have hge := loc_below fi _ tt last ht hl
  dsimp only at hge
  have e1 : frameEntry img s.value = .ok (d, f) := by
    unfold frameEntry
    rw [h1]
    simp only
    rw [h2, Res.bind_ok]
  unfold userLine
  rw [e1, Res.bind_ok]
  simp only
  rw [g1, Res.bind_ok]
  simp only
  rw [hn, Res.bind_ok]
  have e2 : (a.toNat + W64 - s.value + 1) % W64 = last - s.value + 1 := by
    rw [g2]
    rw [W64_eq]
    have : last + 2 ^ 64 - s.value + 1 = last - s.value + 1 + 2 ^ 64 := by omega
    rw [this, Nat.add_mod_right]
    exact Nat.mod_eq_of_lt (by omega)
  rw [e2]
  have t1 : say "\t" = [9#8] := by decide
  have t2 : say "\n" = [10#8] := by decide
  rw [t1, t2]
  unfold usersLine
  simp only [List.append_assoc]
  rfl

/-- The loop over symbols that have a text, with more after them. -/
theorem users_spec (ha : Arranged 1 file img.loads) (hg : GoodSegments file) (more : List Sym) : ∀ (l : List Sym) (last : Option Phdr) (text : List Byte), (∀ s, last = some s → s ∈ img.loads) →
    (∀ s ∈ l, s.value < 2 ^ 64 ∧ img.tab.nameOf s = .ok (t.nameOf s)) → (∀ s ∈ l, s.size ≠ 0 → ∃ p ∈ file, p.type = 1 ∧ InSegment p s.value) →
    UsersText img file t funcs l text → ∃ last', (∀ s, last' = some s → s ∈ img.loads) ∧ usersOf img funcs (l ++ more) last = (usersOf img funcs more last').bind (fun rest => .ok (text ++ rest))
  | [], last, text, hl, _, _, h => by
      cases h
      refine ⟨last, hl, ?_⟩
      rw [List.nil_append]
      cases usersOf img funcs more last <;> rfl
  | s :: l, last, text, hlast, hs, hin, h => by
      have hs' := hs s List.mem_cons_self
      have htl := fun last' text' hl' h' => users_spec ha hg more l last' text' hl' (fun q hq => hs q (List.mem_cons_of_mem _ hq)) (fun q hq => hin q (List.mem_cons_of_mem _ hq)) h'
      rw [List.cons_append, usersOf]
      by_cases hz : s.size = 0
      · rw [if_pos hz]
        cases h with
        | other h1 h2 => exact htl last _ hlast h2
        | user h1 => exact absurd hz h1.1
      · rw [if_neg hz]
        obtain ⟨p, hp1, hp2, hp3⟩ := hin s List.mem_cons_self hz
        obtain ⟨k1, k2⟩ := lookup_ok file img.loads ha hg last hlast s.value hs'.1
        have hpm : p ∈ img.loads := by
          rw [ha.1.mem_iff]
          simp [hp1, hp2]
        have hf := (k2 p).2 ⟨hpm, hp3⟩
        generalize hgs : getSegmentForAddress img.loads last s.value = g at k1 k2 hf
        obtain ⟨last', seg⟩ := g
        dsimp only at k1 k2 hf ⊢
        subst hf
        dsimp only
        have huniq : ∀ q ∈ file, q.type = 1 → InSegment q s.value → q = p := by
          intro q h1 h2 h3
          have := (k2 q).2 ⟨by rw [ha.1.mem_iff]; simp [h1, h2], h3⟩
          exact (Option.some.inj this).symm
        by_cases hx : p.flags &&& 1 = 0
        · rw [if_pos hx]
          have hnl : ¬Listed file t funcs s := by
            rintro ⟨_, ⟨q, h1, h2, h3, h4⟩, _⟩
            rw [huniq q h1 h2 h3, (and_one _).1 hx] at h4
            cases h4
          cases h with
          | other h1 h2 => exact htl last' _ k1 h2
          | user h1 => exact absurd h1 hnl
        · rw [if_neg hx, hs'.2, Res.bind_ok]
          by_cases hw : funcs ≠ [] ∧ t.nameOf s ∉ funcs
          · rw [if_pos hw]
            have hnl : ¬Listed file t funcs s := by
              rintro ⟨_, _, h | h⟩
              · exact hw.1 h
              · exact hw.2 h
            cases h with
            | other h1 h2 => exact htl last' _ k1 h2
            | user h1 => exact absurd h1 hnl
          · rw [if_neg hw]
            have hlist : Listed file t funcs s := by
              refine ⟨hz, ⟨p, hp1, hp2, hp3, ?_⟩, ?_⟩
              · cases hb : p.flags.testBit 0 with
                | true => rfl
                | false => exact absurd ((and_one _).2 hb) hx
              · by_cases hfn : funcs = []
                · exact .inl hfn
                · right
                  by_cases hm : t.nameOf s ∈ funcs
                  · exact hm
                  · exact absurd ⟨hfn, hm⟩ hw
            cases h with
            | other h1 h2 => exact absurd hlist h1
            | user h1 h2 h3 h4 h5 =>
              obtain ⟨last2, j1, j2⟩ := htl last' _ k1 h5
              refine ⟨last2, j1, ?_⟩
              rw [line_spec hs'.1 hs'.2 h2 h4, Res.bind_ok, j2]
              cases usersOf img funcs more last2 with
              | ok r =>
                show Res.ok _ = Res.ok _
                rw [List.append_assoc]
              | exc => rfl
              | ub => rfl
              | abort => rfl

theorem tab_syms (ht : t.In img.tab.symbols img.tab.strings) : ∀ s ∈ t.syms, s.value < 2 ^ 64 ∧ img.tab.nameOf s = .ok (t.nameOf s) := by
  intro s hs
  refine ⟨?_, ht.2 s hs⟩
  rcases ht.1 with ⟨_, h⟩ | ⟨_, _, _, h⟩
  · rw [h] at hs; cases hs
  · exact (h s hs).2.2.2.2.1

/-- C95. For every object whose symbols of some size are all in loadable segments, and every list of names: after any lookups of segments, the program writes the lines of the functions to be
listed, and no others, in the order of the symbols. -/
theorem C95_lines_partial (ht : t.In img.tab.symbols img.tab.strings) (ha : Arranged 1 file img.loads) (hg : GoodSegments file) (hin : ∀ s ∈ t.syms, s.size ≠ 0 → ∃ p ∈ file, p.type = 1 ∧ InSegment p s.value)
    (hist : List Nat) (h64 : ∀ a ∈ hist, a < 2 ^ 64) {text : List Byte} (h : UsersText img file t funcs t.syms text) :
    processImage img funcs (afterLookups img.loads hist) = .ok text := by
  unfold processImage
  rw [entries_of _ _ ht.1, Res.bind_ok]
  obtain ⟨last', _, h2⟩ := users_spec (t := t) (funcs := funcs) ha hg [] _ _ text (afterLookups_mem file img.loads ha hg hist h64 none (fun s h => nomatch h)) (tab_syms ht) hin h
  rw [List.append_nil] at h2
  unfold afterLookups
  rw [h2]
  show Res.ok (text ++ []) = _
  rw [List.append_nil]

/-- C95 does not hold if a symbol with a size, of a thread's own data for example, is in no segment: after the lines of the symbols before it, a null pointer is used. -/
theorem C95_not_segment (ht : t.In img.tab.symbols img.tab.strings) (ha : Arranged 1 file img.loads) (hg : GoodSegments file) {before after : List Sym} {s : Sym} (hsyms : t.syms = before ++ s :: after)
    (hin : ∀ s ∈ before, s.size ≠ 0 → ∃ p ∈ file, p.type = 1 ∧ InSegment p s.value) {text : List Byte} (hb : UsersText img file t funcs before text)
    (hz : s.size ≠ 0) (hno : ∀ p ∈ file, p.type = 1 → ¬InSegment p s.value) (hist : List Nat) (h64 : ∀ a ∈ hist, a < 2 ^ 64) :
    processImage img funcs (afterLookups img.loads hist) = .ub := by
  have hts := tab_syms ht
  rw [hsyms] at hts
  unfold processImage
  rw [entries_of _ _ ht.1, Res.bind_ok, hsyms]
  obtain ⟨last, hl, h2⟩ := users_spec (t := t) (funcs := funcs) ha hg (s :: after) before _ text (afterLookups_mem file img.loads ha hg hist h64 none (fun s h => nomatch h))
    (fun q hq => hts q (by simp [hq])) hin hb
  have h3 : usersOf img funcs (s :: after) last = .ub := by
    rw [usersOf, if_neg hz]
    obtain ⟨_, k2⟩ := lookup_ok file img.loads ha hg last hl s.value (hts s (by simp)).1
    generalize getSegmentForAddress img.loads last s.value = g at k2
    obtain ⟨last', seg⟩ := g
    cases seg with
    | none => rfl
    | some p =>
      exfalso
      obtain ⟨h1, h2⟩ := (k2 p).1 rfl
      rw [ha.1.mem_iff] at h1
      simp at h1
      exact hno p h1.1 h1.2 h2
  unfold afterLookups
  rw [h2, h3]
  rfl

/-- C95 does not hold for a function that has no entry (or if there are no entries at all): a null pointer is used. -/
theorem C95_not_entry (ht : t.In img.tab.symbols img.tab.strings) (ha : Arranged 1 file img.loads) (hg : GoodSegments file) {before after : List Sym} {s : Sym} (hsyms : t.syms = before ++ s :: after)
    (hin : ∀ s ∈ before, s.size ≠ 0 → ∃ p ∈ file, p.type = 1 ∧ InSegment p s.value) {text : List Byte} (hb : UsersText img file t funcs before text) (hs : Listed file t funcs s)
    (h : img.cfi = none ∨ ∃ d find, img.cfi = some (d, find) ∧ find s.value = .ok none) (hist : List Nat) (h64 : ∀ a ∈ hist, a < 2 ^ 64) :
    processImage img funcs (afterLookups img.loads hist) = .ub := by
  have hts := tab_syms ht
  rw [hsyms] at hts
  unfold processImage
  rw [entries_of _ _ ht.1, Res.bind_ok, hsyms]
  obtain ⟨last, hl, h2⟩ := users_spec (t := t) (funcs := funcs) ha hg (s :: after) before _ text (afterLookups_mem file img.loads ha hg hist h64 none (fun s h => nomatch h))
    (fun q hq => hts q (by simp [hq])) hin hb
  have e : userLine img s = .ub := by
    unfold userLine frameEntry
    rcases h with h | ⟨d, find, h1, h2⟩
    · rw [h]; rfl
    · rw [h1]
      simp only
      rw [h2]
      rfl
  have h3 : usersOf img funcs (s :: after) last = .ub := by
    obtain ⟨z1, ⟨p, z2, z3, z4, z5⟩, z6⟩ := hs
    rw [usersOf, if_neg z1]
    obtain ⟨_, k2⟩ := lookup_ok file img.loads ha hg last hl s.value (hts s (by simp)).1
    have hf := (k2 p).2 ⟨by rw [ha.1.mem_iff]; simp [z2, z3], z4⟩
    generalize getSegmentForAddress img.loads last s.value = g at hf
    obtain ⟨last', seg⟩ := g
    dsimp only at hf ⊢
    subst hf
    dsimp only
    have hx : ¬p.flags &&& 1 = 0 := by
      intro hx
      rw [(and_one _).1 hx] at z5
      cases z5
    rw [if_neg hx, (hts s (by simp)).2, Res.bind_ok, if_neg ?_, e]
    · rfl
    · rintro ⟨h1, h2⟩
      rcases z6 with z6 | z6
      · exact h1 z6
      · exact h2 z6
  unfold afterLookups
  rw [h2, h3]
  rfl

end Pstack.Props
