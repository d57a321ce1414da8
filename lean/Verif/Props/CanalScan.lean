import Verif.Spec.CanalScan
import Verif.Spec.RdrContent
import Verif.Proof.Elf
import Verif.Props.Canal
import Verif.Props.FindString
/-
C97, C98: what canal finds in memory.
-/
namespace Pstack.Props
open Pstack.Canal Pstack.Reader Pstack.Spec Pstack.Args
open Pstack.FindString (foundLine)

/-! ### The words -/

/-- The loop over all words, if all can be read. -/
def actAll (act : Found → Nat → Nat → Found) : Nat → List (List Byte) → Found → Found
  | _, [], f => f
  | idx, x :: xs, f => actAll act (idx + 1) xs (act f idx (leNat x))

theorem scan_iterate {rd : Nat → Nat → Res (List Byte)} {sz : Nat} (act : Found → Nat → Nat → Found) :
    ∀ (n : Nat) (w : ArrWin) (idx : Nat) (f : Found) (es : List (List Byte)), iterate rd 0 sz 131072 n w idx = .ok es →
      scanWords rd sz act n w idx f = .ok (actAll act idx es f)
  | 0, w, idx, f, es, h => by
      unfold iterate at h
      cases h
      rfl
  | n + 1, w, idx, f, es, h => by
      unfold iterate at h
      unfold scanWords
      generalize hg : w.getitem rd 0 sz 131072 idx = g at h ⊢
      obtain ⟨w', r⟩ := g
      simp only at h
      cases r with
      | ok bs =>
        rw [Res.bind_ok] at h
        obtain ⟨xs, h1, h2⟩ := Res.bind_eq_ok.1 h
        cases h2
        exact scan_iterate act n w' (idx + 1) _ xs h1
      | exc => cases h
      | ub => cases h
      | abort => cases h

theorem act_fold {act : Found → Nat → Nat → Found} {g : Found → Nat × Nat → Found} {loc sz : Nat} (data : List Byte)
    (hg : ∀ f i p, i < data.length / sz → act f i p = g f (loc + i * sz, p)) :
    ∀ (n idx : Nat) (f : Found), idx + n = data.length / sz →
      actAll act idx ((List.range' idx n).map (fun i => (data.drop (0 + i * sz)).take sz)) f =
        ((List.range' idx n).map (fun i => (loc + i * sz, leNat ((data.drop (i * sz)).take sz)))).foldl g f
  | 0, idx, f, _ => rfl
  | n + 1, idx, f, h => by
      rw [List.range'_succ, List.map_cons, List.map_cons, List.foldl_cons]
      unfold actAll
      rw [hg f idx _ (by omega), Nat.zero_add]
      exact act_fold data hg n (idx + 1) _ (by omega)

variable {read : Nat → Nat → Res (List Byte)} {sz : Nat}

theorem area_len {a : Area} (ho : a.start ≤ a.fileEnd ∧ a.fileEnd < 2 ^ 64 ∧ a.fileEnd - a.start < 2 ^ 63) : (a.fileEnd + W64 - a.start) % W64 = a.fileEnd - a.start := by
  rw [W64_eq]; omega

theorem view_serves {a : Area} {data : List Byte} (hd : AreaBytes read a data) {K : Nat} (hK : K < 2 ^ 63) {off : Nat} (ho : off ≤ data.length) :
    viewRead read a.start data.length off K = .ok ((data.drop off).take K) := by
  have h1 := hd.order
  have h2 := hd.length
  unfold viewRead
  rw [if_neg (by omega)]
  have e1 : (off + K) % W64 = off + K := by rw [W64_eq]; omega
  have e2 : (off + a.start) % W64 = a.start + off := by rw [W64_eq]; omega
  rw [e1, e2]
  split
  · rw [hd.reads off _ (by omega)]
    rw [List.take_of_length_le (by rw [List.length_drop]; omega), List.take_of_length_le (by rw [List.length_drop]; omega)]
  · rw [hd.reads off K (by omega)]

theorem area_scan {act : Nat → Found → Nat → Nat → Found} {g : Found → Nat × Nat → Found} (hsz : sz = 4 ∨ sz = 8)
    (hg : ∀ loc f i p, loc + i * sz < W64 → act loc f i p = g f (loc + i * sz, p))
    {a : Area} {data : List Byte} (hd : AreaBytes read a data) (hm : data.length % sz = 0) (f : Found) :
    scanArea read sz act a f = .ok ((partWords sz (a.start, data)).foldl g f) := by
  have h1 := hd.order
  have h2 := hd.length
  have hpos : 0 < sz := by omega
  unfold scanArea
  simp only
  rw [area_len h1, ← h2, if_neg (by omega)]
  let rd := viewRead read a.start data.length
  let rd' : Nat → Nat → Res (List Byte) := fun off count => if off ≤ data.length then .ok ((data.drop off).take count) else .exc
  have hs : ServesList rd' data := by
    constructor
    · intro off count ho
      show (if off ≤ data.length then _ else _) = _
      rw [if_pos ho]
    · intro off count ho
      left
      show (if off ≤ data.length then _ else _) = _
      rw [if_neg (by omega)]
  have hC := C05_array_iterates_all rd' data hs 0 sz 131072 hpos (by decide) (by omega) (Nat.zero_le _) hm
  unfold readerArray at hC
  rw [if_neg (by omega)] at hC
  have e0 : (data.length + W64 - 0) % W64 = data.length := by rw [W64_eq]; omega
  rw [e0, Nat.sub_zero] at hC
  rw [← Pstack.Elf.iterate_congr rd rd' 0 sz 131072 ?_] at hC
  · rw [scan_iterate _ _ _ _ _ _ hC, List.range_eq_range', act_fold data (g := g) (loc := a.start) ?_ _ 0 f (by omega), ← List.range_eq_range']
    · rfl
    · intro f i p hi
      refine hg _ f i p ?_
      have := Nat.div_mul_le_self data.length sz
      have : i * sz + sz ≤ data.length / sz * sz := by
        rw [← Nat.succ_mul]
        exact Nat.mul_le_mul_right _ hi
      rw [W64_eq]; omega
  · intro off
    show viewRead read a.start data.length off (131072 * sz) = (if off ≤ data.length then _ else _)
    by_cases ho : off ≤ data.length
    · rw [if_pos ho, view_serves hd (by omega) ho]
    · rw [if_neg ho]
      unfold viewRead
      rw [if_pos (by omega)]

theorem hole_scan {act : Nat → Found → Nat → Nat → Found} (hsz : sz = 4 ∨ sz = 8) {a : Area} (hd : AreaHole read a) (f : Found) :
    scanArea read sz act a f = .ok f := by
  have h1 := hd.order
  unfold scanArea
  simp only
  rw [area_len h1]
  split
  · rfl
  · cases hn : (a.fileEnd - a.start) / sz with
    | zero => rfl
    | succ n =>
      unfold scanWords ArrWin.getitem
      simp only [List.length_nil]
      rw [if_pos (by omega)]
      have e : viewRead read a.start (a.fileEnd - a.start) (0 * sz + 0) (131072 * sz) = .exc ∨ viewRead read a.start (a.fileEnd - a.start) (0 * sz + 0) (131072 * sz) = .ok [] := by
        unfold viewRead
        rw [if_neg (by omega)]
        have e2 : (0 * sz + 0 + a.start) % W64 = a.start := by rw [W64_eq]; omega
        rw [e2]
        exact hd.reads _
      rcases e with e | e
      · rw [e]
      · rw [e]
        simp only [List.length_nil]
        rw [if_pos (by omega)]

theorem scan_all {act : Nat → Found → Nat → Nat → Found} {g : Found → Nat × Nat → Found} (hsz : sz = 4 ∨ sz = 8)
    (hg : ∀ loc f i p, loc + i * sz < W64 → act loc f i p = g f (loc + i * sz, p)) {areas : List Area} {mem : List (Nat × List Byte)}
    (h : CanalMemory read areas mem) (hw : WholeWords sz mem) : ∀ f, scanAll read sz act areas f = .ok ((memWords sz mem).foldl g f) := by
  induction h with
  | nil => intro f; rfl
  | io h1 h2 ih =>
    intro f
    unfold scanAll
    rw [if_pos h1]
    exact ih hw f
  | @hole a as l h1 h2 ih =>
    intro f
    unfold scanAll
    split
    · exact ih hw f
    · rw [hole_scan hsz h1, Res.bind_ok]
      exact ih hw f
  | @bytes a as l data h0 h1 h2 ih =>
    intro f
    unfold scanAll
    rw [if_neg (by rw [h0]; decide), area_scan hsz hg h1 (hw (a.start, data) List.mem_cons_self), Res.bind_ok]
    unfold memWords
    rw [List.flatMap_cons, List.foldl_append]
    exact ih (fun m hm => hw m (List.mem_cons_of_mem _ hm)) _

/-! ### Addresses -/

/-- The range of numbers. -/
def askedRange (q : Asked) : Nat × Nat := (q.start, q.stop.getD (q.start + 1))

theorem ranges_asked : ∀ (asked : List Asked) (l : List (Nat × Nat)), (∀ q ∈ asked, q.stop = none → q.start < 2 ^ 64 - 1) →
    rangesOf (asked.flatMap Asked.opts) l = .ok (l ++ asked.map askedRange)
  | [], l, _ => by
      show Res.ok l = _
      rw [List.map_nil, List.append_nil]
  | q :: qs, l, h => by
      have ih := fun l => ranges_asked qs l (fun x hx => h x (List.mem_cons_of_mem _ hx))
      rw [List.flatMap_cons, List.map_cons]
      obtain ⟨a, b⟩ := q
      cases b with
      | none =>
        have h1 : a < 2 ^ 64 - 1 := h ⟨a, none⟩ List.mem_cons_self rfl
        show rangesOf (.startLoc a :: qs.flatMap Asked.opts) l = _
        rw [rangesOf, ih]
        have e : (a + 1) % W64 = a + 1 := by
          rw [W64_eq]; omega
        rw [e, List.append_assoc]
        rfl
      | some b =>
        show rangesOf (.startLoc a :: .endLoc b :: qs.flatMap Asked.opts) l = _
        rw [rangesOf, rangesOf, List.getLast?_concat]
        simp only
        rw [List.dropLast_concat, ih, List.append_assoc]
        rfl

theorem asked_has (q : Asked) (p : Nat) : (p ≥ (askedRange q).1 ∧ p < (askedRange q).2) ↔ q.has p = true := by
  obtain ⟨a, b⟩ := q
  unfold askedRange Asked.has
  cases b with
  | none => simp; omega
  | some b => simp

theorem range_lines (a p : Nat) : ∀ (asked : List Asked),
    (asked.map askedRange).flatMap (fun r => if p ≥ r.1 ∧ p < r.2 then foundLine a else []) = addressLines ((asked.filter (·.has p)).map (fun _ => a))
  | [] => rfl
  | q :: qs => by
      rw [List.map_cons, List.flatMap_cons, range_lines a p qs]
      by_cases h : q.has p = true
      · rw [if_pos ((asked_has q p).2 h), List.filter_cons_of_pos (p := fun x : Asked => x.has p) h, List.map_cons, line_text]
        unfold addressLines
        rw [List.flatMap_cons, List.flatMap_cons, List.flatMap_nil, List.append_nil]
      · rw [if_neg (fun hh => h ((asked_has q p).1 hh)), List.filter_cons_of_neg (p := fun x : Asked => x.has p) h]
        rfl

theorem range_fold (asked : List Asked) (store : OMap Sym) : ∀ (ws : List (Nat × Nat)) (out : List Byte),
    ws.foldl (fun f w => { f with out := f.out ++ addressLines ((asked.filter (·.has w.2)).map (fun _ => w.1)) }) (⟨out, store⟩ : Found) =
      ⟨out ++ addressLines (references asked ws), store⟩
  | [], out => by
      show _ = (⟨out ++ [], store⟩ : Found)
      rw [List.append_nil]
      rfl
  | w :: ws, out => by
      rw [List.foldl_cons, range_fold asked store ws]
      unfold references
      rw [List.flatMap_cons]
      unfold addressLines
      rw [List.flatMap_append, List.append_assoc]

theorem none_counted {sort : List Sym → List Sym} (hs : SortsDown sort) {store : OMap Sym} (h0 : ∀ e ∈ store, e.2.count = 0) :
    (sort (store.map (·.2))).flatMap countLine = [] := by
  rw [List.flatMap_eq_nil_iff]
  intro s hm
  obtain ⟨e, he, rfl⟩ := List.mem_map.1 ((hs _).1.mem_iff.1 hm)
  unfold countLine
  rw [if_neg (by rw [h0 e he]; decide)]

/-- C97. For every memory of whole words, and everything asked for, canal writes the address of each word that is asked for. -/
theorem C97_references_partial (hsz : sz = 4 ∨ sz = 8) {areas : List Area} {mem : List (Nat × List Byte)} (hm : CanalMemory read areas mem) (hw : WholeWords sz mem)
    {asked : List Asked} (hne : asked ≠ []) (hf : ∀ q ∈ asked, q.stop = none → q.start < 2 ^ 64 - 1) (symOffset : Int) (shows : Bool)
    {sort : List Sym → List Sym} (hs : SortsDown sort) {store : OMap Sym} (h0 : ∀ e ∈ store, e.2.count = 0) :
    canal read areas sz (asked.flatMap Asked.opts) symOffset shows sort store = .ok (addressLines (references asked (memWords sz mem))) := by
  unfold canal
  rw [ranges_asked asked [] hf, Res.bind_ok, List.nil_append, if_neg (by cases asked with | nil => exact absurd rfl hne | cons q qs => exact Bool.false_ne_true)]
  rw [scan_all (g := fun f w => { f with out := f.out ++ addressLines ((asked.filter (·.has w.2)).map (fun _ => w.1)) }) hsz ?_ hm hw, Res.bind_ok, range_fold]
  · simp only
    rw [none_counted hs h0, List.append_nil]
    rfl
  · intro loc f i p hlt
    unfold rangeAct
    rw [Nat.mod_eq_of_lt hlt, range_lines]

/-- C97 does not hold if a part of the memory is not made up of whole words: nothing in it is found. -/
theorem C97_not_multiple {a : Area} {data : List Byte} (hd : AreaBytes read a data) (hm : data.length % sz ≠ 0)
    {asked : List Asked} (hne : asked ≠ []) (hf : ∀ q ∈ asked, q.stop = none → q.start < 2 ^ 64 - 1) (symOffset : Int) (shows : Bool)
    {sort : List Sym → List Sym} (hs : SortsDown sort) {store : OMap Sym} (h0 : ∀ e ∈ store, e.2.count = 0) :
    canal read [a] sz (asked.flatMap Asked.opts) symOffset shows sort store = .ok [] := by
  unfold canal
  rw [ranges_asked asked [] hf, Res.bind_ok, List.nil_append, if_neg (by cases asked with | nil => exact absurd rfl hne | cons q qs => exact Bool.false_ne_true)]
  have e : scanAll read sz (rangeAct (asked.map askedRange) sz) [a] ⟨[], store⟩ = .ok ⟨[], store⟩ := by
    unfold scanAll
    split
    · rfl
    · unfold scanArea
      simp only
      rw [area_len hd.order, ← hd.length, if_pos hm, Res.bind_ok]
      rfl
  rw [e, Res.bind_ok]
  simp only
  rw [none_counted hs h0]
  rfl

/-- C97 does not hold for the last address: nothing is found, whatever the memory. -/
theorem C97_not_last (hsz : sz = 4 ∨ sz = 8) {areas : List Area} {mem : List (Nat × List Byte)} (hm : CanalMemory read areas mem) (hw : WholeWords sz mem)
    (symOffset : Int) (shows : Bool) {sort : List Sym → List Sym} (hs : SortsDown sort) {store : OMap Sym} (h0 : ∀ e ∈ store, e.2.count = 0) :
    canal read areas sz (Asked.opts ⟨2 ^ 64 - 1, none⟩) symOffset shows sort store = .ok [] := by
  unfold canal
  have e : rangesOf (Asked.opts ⟨2 ^ 64 - 1, none⟩) [] = .ok [(2 ^ 64 - 1, 0)] := rfl
  rw [e, Res.bind_ok, if_neg (by decide)]
  rw [scan_all (g := fun f w => f) hsz ?_ hm hw, Res.bind_ok]
  · have : ∀ (ws : List (Nat × Nat)) (f : Found), ws.foldl (fun f _ => f) f = f := by
      intro ws
      induction ws with
      | nil => intro f; rfl
      | cons w ws ih => intro f; exact ih f
    rw [this]
    simp only
    rw [none_counted hs h0]
    rfl
  · intro loc f i p hlt
    unfold rangeAct
    rw [List.flatMap_cons, List.flatMap_nil, if_neg (by omega), List.append_nil, List.append_nil]

/-- C97 does not hold if `-e` is before any `-f`: a range that does not exist is changed. -/
theorem C97_not_order (b : Nat) (opts : List Opt) (areas : List Area) (symOffset : Int) (shows : Bool) (sort : List Sym → List Sym) (store : OMap Sym) :
    canal read areas sz (.endLoc b :: opts) symOffset shows sort store = .ub := rfl

end Pstack.Props
