import Verif.Proof.Python
/-
Printing ends, and expands each container once.
-/
namespace Pstack.Python
open Pstack.Spec

/-! ### Counting what has not been seen -/

/-- How many addresses below `n` are not in `S`. -/
def unseen (n : Nat) (S : List Nat) : Nat := ((List.range n).filter fun x => decide (x ∉ S)).length

theorem filter_length_le {α : Type} {p q : α → Bool} (h : ∀ x, p x = true → q x = true) : ∀ l : List α, (l.filter p).length ≤ (l.filter q).length
  | [] => Nat.le_refl _
  | x :: l => by
      have := filter_length_le h l
      simp only [List.filter_cons]
      by_cases hp : p x = true
      · rw [if_pos hp, if_pos (h x hp)]; simp only [List.length_cons]; omega
      · rw [if_neg hp]; split
        · simp only [List.length_cons]; omega
        · exact this

theorem filter_length_lt {α : Type} {p q : α → Bool} (h : ∀ x, p x = true → q x = true) {a : α} (hq : q a = true) (hp : ¬ p a = true) :
    ∀ l : List α, a ∈ l → (l.filter p).length < (l.filter q).length
  | x :: l, hm => by
      simp only [List.filter_cons]
      rcases List.mem_cons.1 hm with rfl | hm
      · rw [if_neg hp, if_pos hq]
        have := filter_length_le h l
        simp only [List.length_cons]; omega
      · have := filter_length_lt h hq hp l hm
        by_cases hpx : p x = true
        · rw [if_pos hpx, if_pos (h x hpx)]; simp only [List.length_cons]; omega
        · rw [if_neg hpx]; split
          · simp only [List.length_cons]; omega
          · exact this

theorem unseen_le {n : Nat} {S S' : List Nat} (h : ∀ x ∈ S, x ∈ S') : unseen n S' ≤ unseen n S :=
  filter_length_le (fun x hx => by
    simp only [decide_eq_true_eq] at hx ⊢
    exact fun hs => hx (h x hs)) _

theorem unseen_lt {n a : Nat} {S : List Nat} (ha : a < n) (hs : a ∉ S) : unseen n (a :: S) < unseen n S :=
  filter_length_lt (a := a) (fun x hx => by
    simp only [decide_eq_true_eq, List.mem_cons, not_or] at hx ⊢
    exact hx.2) (by simpa using hs) (by simp) _ (List.mem_range.2 ha)

theorem unseen_bound (n : Nat) (S : List Nat) : unseen n S ≤ n := by
  have := List.length_filter_le (fun x => decide (x ∉ S)) (List.range n)
  simpa [unseen] using this

/-! ### Scripts of things that have nothing inside -/

/-- It prints no objects, and there is no next one. -/
def Leaf (s : Script Nat) : Prop := (∀ x ∈ s.acts, ∀ a, x ≠ .obj a) ∧ ∀ n, s.res = .ok n → n = 0

theorem leaf_act {x : Act} {f : Unit → Script Nat} (hx : ∀ a, x ≠ .obj a) (h : Leaf (f ())) : Leaf (act x >>= f) := by
  rw [Script.bind_act]
  refine ⟨fun y hy a => ?_, h.2⟩
  rcases List.mem_cons.1 hy with rfl | hy
  · exact hx a
  · exact h.1 y hy a

theorem leaf_lift {α : Type} {r : Res α} {f : α → Script Nat} (h : ∀ a, r = .ok a → Leaf (f a)) : Leaf (Script.lift r >>= f) := by
  cases r with
  | ok a => exact h a rfl
  | exc => exact ⟨(fun _ h => nomatch h), (fun _ h => nomatch h)⟩
  | ub => exact ⟨(fun _ h => nomatch h), (fun _ h => nomatch h)⟩
  | abort => exact ⟨(fun _ h => nomatch h), (fun _ h => nomatch h)⟩

theorem leaf_done : Leaf (pure 0) := ⟨(fun _ h => nomatch h), fun n h => by cases h; rfl⟩

theorem leaf_script (cfg : Config) (mem : Mem) (ty : TypeObj) (buf : List Byte) (a : Nat) (d : Int) (k : Kind) (hk : k.dupdetect = false) : Leaf (script cfg mem ty buf a d k) := by
  cases k <;> first | (exact absurd hk (by decide)) | skip
  · exact leaf_lift fun t _ => leaf_act (fun _ h => nomatch h) (leaf_act (fun _ h => nomatch h) (leaf_act (fun _ h => nomatch h) leaf_done))
  · exact leaf_lift fun t _ => leaf_act (fun _ h => nomatch h) leaf_done
  · exact leaf_lift fun t _ => leaf_act (fun _ h => nomatch h) leaf_done
  · exact leaf_lift fun t _ => leaf_act (fun _ h => nomatch h) leaf_done
  · exact leaf_lift fun t _ => leaf_act (fun _ h => nomatch h) leaf_done

theorem runActs_leaf (pr : Nat → St → Option (Res St)) : ∀ (l : List Act), (∀ x ∈ l, ∀ a, x ≠ .obj a) → ∀ st, ∃ st', runActs pr l st = some (.ok st') ∧
    st'.visited = st.visited ∧ st'.types = st.types ∧ st'.expanded = st.expanded
  | [], _, st => ⟨st, rfl, rfl, rfl, rfl⟩
  | .say t :: l, h, st => by
      obtain ⟨st', h1, h2, h3, h4⟩ := runActs_leaf pr l (fun x hx => h x (List.mem_cons_of_mem _ hx)) (st.put t)
      exact ⟨st', h1, h2, h3, h4⟩
  | .indent :: l, h, st => by
      obtain ⟨st', h1, h2, h3, h4⟩ := runActs_leaf pr l (fun x hx => h x (List.mem_cons_of_mem _ hx)) (st.put (prefixText st.depth))
      exact ⟨st', h1, h2, h3, h4⟩
  | .deeper :: l, h, st => by
      obtain ⟨st', h1, h2, h3, h4⟩ := runActs_leaf pr l (fun x hx => h x (List.mem_cons_of_mem _ hx)) { st with depth := st.depth + 1 }
      exact ⟨st', h1, h2, h3, h4⟩
  | .shallower :: l, h, st => by
      obtain ⟨st', h1, h2, h3, h4⟩ := runActs_leaf pr l (fun x hx => h x (List.mem_cons_of_mem _ hx)) { st with depth := st.depth - 1 }
      exact ⟨st', h1, h2, h3, h4⟩
  | .obj a :: l, h, st => absurd rfl (h (.obj a) List.mem_cons_self a)

/-! ### What a round does -/

/-- What has been seen and expanded: nothing twice. -/
structure Once (st : St) : Prop where
  nodup : st.expanded.Nodup
  seen : ∀ a ∈ st.expanded, a ∈ st.visited

/-- Same or more seen, the same expanded. -/
def SameSeen (st st' : St) : Prop := st'.visited = st.visited ∧ st'.expanded = st.expanded

/-- What the next state may be. -/
def RoundOk (addr : Nat) (st : St) : Round → Prop
  | .stop st' => st'.expanded = st.expanded ∧ (st'.visited = st.visited ∨ st'.visited = addr :: st.visited)
  | .fail st' => st'.expanded = st.expanded ∧ (st'.visited = st.visited ∨ st'.visited = addr :: st.visited)
  | .bad => True
  | .call st' s =>
      (addr ∉ st.visited ∧ st'.visited = addr :: st.visited ∧ st'.expanded = st.expanded ++ [addr]) ∨ (st'.visited = st.visited ∧ st'.expanded = st.expanded ∧ Leaf s)

theorem typeOf_same (cfg : Config) (mem : Mem) (st : St) (t : Nat) : SameSeen st (typeOf cfg mem st t).1 := by
  unfold typeOf
  split
  · exact ⟨rfl, rfl⟩
  · exact ⟨rfl, rfl⟩
  · dsimp only
    split <;> exact ⟨rfl, rfl⟩

theorem expand_ok (cfg : Config) (mem : Mem) (addr : Nat) (st0 : St) (ty : TypeObj) (k : Kind) (size : Int) (h : k.dupdetect = true → addr ∉ st0.visited) :
    RoundOk addr st0 (expand cfg mem addr (if k.dupdetect then { st0 with visited := addr :: st0.visited } else st0) ty k size) := by
  generalize hst : (if k.dupdetect then { st0 with visited := addr :: st0.visited } else st0 : St) = st1
  have hd : (k.dupdetect = true → st1.visited = addr :: st0.visited) ∧ (k.dupdetect = false → st1.visited = st0.visited) ∧ st1.expanded = st0.expanded := by
    rw [← hst]
    cases k.dupdetect
    · exact ⟨(fun h => nomatch h), fun _ => rfl, rfl⟩
    · exact ⟨fun _ => rfl, (fun h => nomatch h), rfl⟩
  have hv : st1.expanded = st0.expanded ∧ (st1.visited = st0.visited ∨ st1.visited = addr :: st0.visited) := by
    refine ⟨hd.2.2, ?_⟩
    cases hk : k.dupdetect
    · exact Or.inl (hd.2.1 hk)
    · exact Or.inr (hd.1 hk)
  unfold expand
  split
  · trivial
  · split
    · exact hv
    · dsimp only
      generalize signed 8 _ = full
      split
      · trivial
      · split
        · cases hk : k.dupdetect
          · exact Or.inr ⟨hd.2.1 hk, hd.2.2, leaf_script _ _ _ _ _ _ _ hk⟩
          · refine Or.inl ⟨h hk, hd.1 hk, ?_⟩
            show st1.expanded ++ [addr] = _
            rw [hd.2.2]
        · exact hv
        · trivial

theorem round_ok (cfg : Config) (mem : Mem) (addr : Nat) (st : St) : RoundOk addr st (round cfg mem addr st) := by
  unfold round
  split
  · rename_i l _
    dsimp only
    generalize hst : (if num (l.take 8) = 0 then st.put "(dead object)".toList else st) = st0
    have h0 : SameSeen st st0 := by
      rw [← hst]; split <;> exact ⟨rfl, rfl⟩
    have h1 := typeOf_same cfg mem st0 (num ((l.drop 8).take 8))
    generalize typeOf cfg mem st0 (num ((l.drop 8).take 8)) = r at h1
    have h2 : SameSeen st r.1 := ⟨h1.1.trans h0.1, h1.2.trans h0.2⟩
    split
    · split
      · exact ⟨h2.2, Or.inl h2.1⟩
      · rename_i k _
        split
        · exact ⟨h2.2, Or.inl h2.1⟩
        · rename_i hn
          have := expand_ok cfg mem addr r.1 ‹TypeObj› k (signed 8 (num ((l.drop 16).take 8))) (fun hk hm => hn ⟨hk, hm⟩)
          revert this
          unfold RoundOk
          rw [h2.1, h2.2]
          exact id
    · exact ⟨h2.2, Or.inl h2.1⟩
    · trivial
  · exact ⟨rfl, Or.inl rfl⟩
  · trivial

/-- A round that calls a printer has read the object. -/
theorem round_reads {cfg : Config} {mem : Mem} {addr : Nat} {st st' : St} {s : Script Nat} (h : round cfg mem addr st = .call st' s) : ∃ b, mem addr = some b := by
  unfold round at h
  split at h
  · rename_i l hl
    unfold readObj at hl
    rw [if_neg (by omega)] at hl
    split at hl
    · rename_i l' hb
      have hlen := bytesAt_length hb
      have := bytesAt_get hb 0 (by omega)
      simp only [Nat.add_zero] at this
      exact ⟨_, this⟩
    · cases hl
  · cases h
  · cases h

/-! ### It ends -/

theorem once_put {st : St} (h : Once st) (t : Text) : Once (st.put t) := ⟨h.nodup, h.seen⟩

/-- After printing: more seen, and nothing expanded twice. -/
def After (st st' : St) : Prop := (∀ x ∈ st.visited, x ∈ st'.visited) ∧ (Once st → Once st')

theorem after_refl (st : St) : After st st := ⟨fun _ h => h, id⟩
theorem After.trans {a b c : St} (h : After a b) (h' : After b c) : After a c := ⟨fun x hx => h'.1 x (h.1 x hx), fun ho => h'.2 (h.2 ho)⟩
theorem after_same {a b : St} (h1 : b.visited = a.visited) (h2 : b.expanded = a.expanded) : After a b := by
  refine ⟨fun x hx => by rw [h1]; exact hx, fun ho => ⟨by rw [h2]; exact ho.nodup, fun x hx => ?_⟩⟩
  rw [h2] at hx; rw [h1]; exact ho.seen x hx

theorem runActs_ends {pr : Nat → St → Option (Res St)} {N u : Nat} (hpr : ∀ a st, unseen N st.visited ≤ u → ∃ r, pr a st = some r ∧ ∀ st', r = .ok st' → After st st') :
    ∀ (l : List Act) (st : St), unseen N st.visited ≤ u → ∃ r, runActs pr l st = some r ∧ ∀ st', r = .ok st' → After st st'
  | [], st, _ => ⟨.ok st, rfl, fun st' h => by cases h; exact after_refl st⟩
  | .say t :: l, st, h => by
      obtain ⟨r, h1, h2⟩ := runActs_ends hpr l (st.put t) h
      exact ⟨r, h1, fun st' he => ⟨(h2 st' he).1, fun ho => (h2 st' he).2 ⟨ho.nodup, ho.seen⟩⟩⟩
  | .indent :: l, st, h => by
      obtain ⟨r, h1, h2⟩ := runActs_ends hpr l (st.put (prefixText st.depth)) h
      exact ⟨r, h1, fun st' he => ⟨(h2 st' he).1, fun ho => (h2 st' he).2 ⟨ho.nodup, ho.seen⟩⟩⟩
  | .deeper :: l, st, h => by
      obtain ⟨r, h1, h2⟩ := runActs_ends hpr l { st with depth := st.depth + 1 } h
      exact ⟨r, h1, fun st' he => ⟨(h2 st' he).1, fun ho => (h2 st' he).2 ⟨ho.nodup, ho.seen⟩⟩⟩
  | .shallower :: l, st, h => by
      obtain ⟨r, h1, h2⟩ := runActs_ends hpr l { st with depth := st.depth - 1 } h
      exact ⟨r, h1, fun st' he => ⟨(h2 st' he).1, fun ho => (h2 st' he).2 ⟨ho.nodup, ho.seen⟩⟩⟩
  | .obj a :: l, st, h => by
      obtain ⟨r, h1, h2⟩ := hpr a st h
      cases r with
      | ok st1 =>
          have h3 := h2 st1 rfl
          obtain ⟨r', h4, h5⟩ := runActs_ends hpr l st1 (Nat.le_trans (unseen_le h3.1) h)
          refine ⟨r', ?_, fun st' he => h3.trans (h5 st' he)⟩
          simp only [runActs, h1, h4]
      | exc => exact ⟨.exc, by simp only [runActs, h1], fun _ he => nomatch he⟩
      | ub => exact ⟨.ub, by simp only [runActs, h1], fun _ he => nomatch he⟩
      | abort => exact ⟨.abort, by simp only [runActs, h1], fun _ he => nomatch he⟩

theorem printWith_ends {lp : Nat → St → Option (Res St)} {N u : Nat} (hlp : ∀ a st, unseen N st.visited ≤ u → ∃ r, lp a st = some r ∧ ∀ st', r = .ok st' → After st st')
    (a : Nat) (st : St) (h : unseen N st.visited ≤ u) : ∃ r, printWith lp a st = some r ∧ ∀ st', r = .ok st' → After st st' := by
  unfold printWith
  split
  · exact ⟨_, rfl, fun st' he => by cases he; exact after_same rfl rfl⟩
  · obtain ⟨r, h1, h2⟩ := hlp a { st with depth := st.depth + 1 } h
    rw [h1]
    cases r with
    | ok st1 => exact ⟨_, rfl, fun st' he => by
        cases he
        refine After.trans (after_same (b := { st with depth := st.depth + 1 }) rfl rfl) ((h2 st1 rfl).trans ?_)
        exact after_same rfl rfl⟩
    | exc => exact ⟨.exc, rfl, fun _ he => nomatch he⟩
    | ub => exact ⟨.ub, rfl, fun _ he => nomatch he⟩
    | abort => exact ⟨.abort, rfl, fun _ he => nomatch he⟩

theorem after_visit {st st' : St} {addr : Nat} (hn : addr ∉ st.visited) (h1 : st'.visited = addr :: st.visited) (h2 : st'.expanded = st.expanded ++ [addr]) : After st st' := by
  refine ⟨fun x hx => by rw [h1]; exact List.mem_cons_of_mem _ hx, fun ho => ⟨?_, fun x hx => ?_⟩⟩
  · rw [h2, List.nodup_append]
    refine ⟨ho.nodup, by simp, fun x hx y hy => ?_⟩
    rw [List.mem_singleton.1 hy]
    exact fun e => hn (e ▸ ho.seen x hx)
  · rw [h2] at hx
    rw [h1]
    rcases List.mem_append.1 hx with hx | hx
    · exact List.mem_cons_of_mem _ (ho.seen x hx)
    · rw [List.mem_singleton.1 hx]; exact List.mem_cons_self

theorem after_seen {st st' : St} {addr : Nat} (h2 : st'.expanded = st.expanded) (h1 : st'.visited = st.visited ∨ st'.visited = addr :: st.visited) : After st st' := by
  have hv : ∀ x ∈ st.visited, x ∈ st'.visited := by
    intro x hx
    rcases h1 with h1 | h1
    · rw [h1]; exact hx
    · rw [h1]; exact List.mem_cons_of_mem _ hx
  exact ⟨hv, fun ho => ⟨by rw [h2]; exact ho.nodup, fun x hx => by rw [h2] at hx; exact hv x (ho.seen x hx)⟩⟩

theorem loop_ends {cfg : Config} {mem : Mem} {N : Nat} (hmem : ∀ a, N ≤ a → mem a = none) : ∀ (n a : Nat) (st : St), unseen N st.visited + 2 ≤ n →
    ∃ r, loop cfg mem n a st = some r ∧ ∀ st', r = .ok st' → After st st'
  | 0, _, _, h => by omega
  | n + 1, a, st, h => by
      unfold loop
      split
      · exact ⟨_, rfl, fun st' he => by cases he; exact after_refl _⟩
      · have hr := round_ok cfg mem a st
        split
        · rename_i st1 e
          rw [e] at hr
          exact ⟨_, rfl, fun st' he => by cases he; exact after_seen hr.1 hr.2⟩
        · rename_i st1 e
          rw [e] at hr
          exact ⟨_, rfl, fun st' he => by cases he; exact (after_seen hr.1 hr.2).trans (after_same rfl rfl)⟩
        · exact ⟨_, rfl, fun _ he => nomatch he⟩
        · rename_i st1 s e
          rw [e] at hr
          obtain ⟨b, hb⟩ := round_reads e
          rcases hr with ⟨hn, hv, hx⟩ | ⟨hv, hx, hleaf⟩
          · have ha : a < N := by
              apply Nat.lt_of_not_le
              intro hle
              rw [hmem a hle] at hb
              cases hb
            have hlt : unseen N st1.visited < unseen N st.visited := by rw [hv]; exact unseen_lt ha hn
            have hA := after_visit hn hv hx
            have ih : ∀ a st, unseen N st.visited ≤ n - 2 → ∃ r, loop cfg mem n a st = some r ∧ ∀ st', r = .ok st' → After st st' :=
              fun a st h' => loop_ends hmem n a st (by omega)
            obtain ⟨r, h1, h2⟩ := runActs_ends (printWith_ends ih) s.acts st1 (by omega)
            rw [h1]
            cases r with
            | ok st2 =>
                have h3 := h2 st2 rfl
                dsimp only
                split
                · rename_i next _
                  obtain ⟨r', h4, h5⟩ := ih next st2 (by have := unseen_le (n := N) h3.1; omega)
                  exact ⟨r', h4, fun st' he => hA.trans (h3.trans (h5 st' he))⟩
                · exact ⟨_, rfl, fun st' he => by cases he; exact hA.trans (h3.trans (after_same rfl rfl))⟩
                · exact ⟨_, rfl, fun _ he => nomatch he⟩
                · exact ⟨_, rfl, fun _ he => nomatch he⟩
            | exc => exact ⟨_, rfl, fun _ he => nomatch he⟩
            | ub => exact ⟨_, rfl, fun _ he => nomatch he⟩
            | abort => exact ⟨_, rfl, fun _ he => nomatch he⟩
          · obtain ⟨st2, h1, h2, h3, h4⟩ := runActs_leaf (printWith (loop cfg mem n)) s.acts hleaf.1 st1
            have hA : After st st2 := after_same (h2.trans hv) (h4.trans hx)
            rw [h1]
            dsimp only
            split
            · rename_i next hres
              rw [hleaf.2 next hres]
              obtain ⟨m, rfl⟩ : ∃ m, n = m + 1 := ⟨n - 1, by omega⟩
              exact ⟨.ok st2, by simp [loop], fun st' he => by cases he; exact hA⟩
            · exact ⟨_, rfl, fun st' he => by cases he; exact hA.trans (after_same rfl rfl)⟩
            · exact ⟨_, rfl, fun _ he => nomatch he⟩
            · exact ⟨_, rfl, fun _ he => nomatch he⟩

/-! ### More rounds change nothing -/

theorem runActs_mono {pr pr' : Nat → St → Option (Res St)} (h : ∀ a st r, pr a st = some r → pr' a st = some r) :
    ∀ (l : List Act) (st : St) (r : Res St), runActs pr l st = some r → runActs pr' l st = some r
  | [], _, _, e => e
  | .say _ :: l, st, r, e => runActs_mono h l _ r e
  | .indent :: l, st, r, e => runActs_mono h l _ r e
  | .deeper :: l, st, r, e => runActs_mono h l _ r e
  | .shallower :: l, st, r, e => runActs_mono h l _ r e
  | .obj a :: l, st, r, e => by
      simp only [runActs] at e ⊢
      cases hp : pr a st with
      | none => rw [hp] at e; cases e
      | some x =>
          rw [hp] at e
          rw [h a st x hp]
          cases x with
          | ok st1 => exact runActs_mono h l st1 r e
          | exc => exact e
          | ub => exact e
          | abort => exact e

theorem printWith_mono {lp lp' : Nat → St → Option (Res St)} (h : ∀ a st r, lp a st = some r → lp' a st = some r) (a : Nat) (st : St) (r : Res St)
    (e : printWith lp a st = some r) : printWith lp' a st = some r := by
  unfold printWith at e ⊢
  by_cases hd : st.depth > 10000
  · rw [if_pos hd] at e ⊢; exact e
  · rw [if_neg hd] at e ⊢
    cases hp : lp a { st with depth := st.depth + 1 } with
    | none => rw [hp] at e; cases e
    | some x =>
        rw [hp] at e
        rw [h _ _ x hp]
        cases x <;> exact e

theorem loop_mono_succ (cfg : Config) (mem : Mem) : ∀ (n a : Nat) (st : St) (r : Res St), loop cfg mem n a st = some r → loop cfg mem (n + 1) a st = some r
  | 0, _, _, _, e => by simp [loop] at e
  | n + 1, a, st, r, e => by
      unfold loop at e ⊢
      split
      · rename_i ha; rw [if_pos ha] at e; exact e
      · rename_i ha
        rw [if_neg ha] at e
        revert e
        split
        · exact id
        · exact id
        · exact id
        · rename_i st1 s _
          intro e
          cases hp : runActs (printWith (loop cfg mem n)) s.acts st1 with
          | none => rw [hp] at e; cases e
          | some x =>
              rw [hp] at e
              rw [runActs_mono (fun a st r => printWith_mono (loop_mono_succ cfg mem n) a st r) _ _ _ hp]
              cases x with
              | ok st2 =>
                  dsimp only at e ⊢
                  revert e
                  split
                  · exact loop_mono_succ cfg mem n _ _ _
                  · exact id
                  · exact id
                  · exact id
              | exc => exact e
              | ub => exact e
              | abort => exact e

theorem loop_mono {cfg : Config} {mem : Mem} {n m a : Nat} {st : St} {r : Res St} (hle : n ≤ m) (h : loop cfg mem n a st = some r) : loop cfg mem m a st = some r := by
  obtain ⟨k, rfl⟩ := Nat.le.dest hle
  induction k with
  | zero => exact h
  | succ k ih => exact loop_mono_succ cfg mem (n + k) a st r (ih (by omega))

theorem print_mono {cfg : Config} {mem : Mem} {n m a : Nat} {st : St} {r : Res St} (hle : n ≤ m) (h : print cfg mem n a st = some r) : print cfg mem m a st = some r :=
  printWith_mono (fun _ _ _ => loop_mono hle) a st r h

theorem print_ends {cfg : Config} {mem : Mem} (hmem : ∀ a, W64 ≤ a → mem a = none) (a : Nat) (st : St) :
    ∃ r, (∀ n, W64 + 2 ≤ n → print cfg mem n a st = some r) ∧ ∀ st', r = .ok st' → After st st' := by
  obtain ⟨r, h1, h2⟩ := printWith_ends (N := W64) (u := W64) (lp := loop cfg mem (W64 + 2)) (fun a st h => loop_ends hmem (W64 + 2) a st (by omega)) a st (unseen_bound _ _)
  exact ⟨r, fun n hn => print_mono hn h1, h2⟩

/-- Printing never throws: its exceptions are caught. -/
theorem loop_catches (cfg : Config) (mem : Mem) : ∀ (n a : Nat) (st : St), loop cfg mem n a st ≠ some .exc := by
  intro n
  induction n with
  | zero => intro a st h; simp [loop] at h
  | succ n ih =>
      have hp : ∀ a st, printWith (loop cfg mem n) a st ≠ some .exc := by
        intro a st h
        unfold printWith at h
        split at h
        · cases h
        · split at h
          · cases h
          · exact ih _ _ h
      have hr : ∀ (l : List Act) (st : St), runActs (printWith (loop cfg mem n)) l st ≠ some .exc := by
        intro l
        induction l with
        | nil => intro st h; cases h
        | cons x l ihl =>
            intro st h
            cases x with
            | say t => exact ihl _ h
            | indent => exact ihl _ h
            | deeper => exact ihl _ h
            | shallower => exact ihl _ h
            | obj a =>
                simp only [runActs] at h
                split at h
                · exact ihl _ h
                · exact hp _ _ h
      intro a st h
      unfold loop at h
      split at h
      · cases h
      · split at h
        · cases h
        · cases h
        · cases h
        · split at h
          · split at h
            · exact ih _ _ h
            · cases h
            · cases h
            · cases h
          · exact hr _ _ h

theorem print_catches (cfg : Config) (mem : Mem) (n a : Nat) (st : St) : print cfg mem n a st ≠ some .exc := by
  intro h
  unfold print printWith at h
  split at h
  · cases h
  · have hl := loop_catches cfg mem n a { st with depth := st.depth + 1 }
    generalize loop cfg mem n a { st with depth := st.depth + 1 } = r at h hl
    match r, hl with
    | none, _ => cases h
    | some (.ok _), _ => cases h
    | some .exc, hl => exact hl rfl
    | some .ub, _ => cases h
    | some .abort, _ => cases h

end Pstack.Python
