import Verif.Spec.CoreNotes
import Verif.Props.Notes
import Verif.Proof.Frame
/-
C52: threads and registers of a core. C53: mapped files of a core. C54: address space of a core.
-/
namespace Pstack.Props
open Pstack.Reader Pstack.Elf Pstack.Spec Pstack.Dwarf Pstack.CoreNotes

/-! ## C52 -/

theorem represents_obj (d : NoteDesc) (n : NoteVal) (h : Represents d n) (hne : n.desc ≠ []) : d.data.readObj 0 n.desc.length = .ok n.desc := by
  obtain ⟨_, _, h3, h4⟩ := h
  exact readObj_at d.data h3 0 n.desc [] (by rw [List.drop_zero, h4, List.append_nil]) hne

/-- The id a status note carries. -/
def noteId (n : NoteVal) : Nat := leNat ((n.desc.drop 32).take 4)

/-- The index of threads. -/
def index : List NoteVal → Nat → OMap Nat → OMap Nat
  | [], _, m => m
  | n :: rest, i, m => index rest (i + 1) (if isStatus n then OMap.assign (noteId n) i m else m)

/-- The last process description. -/
def lastInfo : List NoteVal → List Byte → List Byte
  | [], b => b
  | n :: rest, b => lastInfo rest (if n.name = CORE ∧ n.type = 3 then n.desc else b)

theorem scan_spec (all ds : List NoteDesc) (ns : List NoteVal) (h : Each Represents ds ns) :
    ∀ i m info, (∀ n ∈ ns, isStatus n = true → n.desc.length = 336) → (∀ n ∈ ns, n.name = CORE → n.type = 3 → n.desc.length = 136) →
      scan all ds i m info = .ok ⟨index ns i m, lastInfo ns info, all⟩ := by
  induction h with
  | nil => intro i m info _ _; rfl
  | cons hr _ ih =>
    rename_i d n ds ns _
    intro i m info hs hp
    have hr' := hr
    obtain ⟨h1, h2, h3, h4⟩ := hr
    have hs' : ∀ x ∈ ns, isStatus x = true → x.desc.length = 336 := fun x hx => hs x (by simp [hx])
    have hp' : ∀ x ∈ ns, x.name = CORE → x.type = 3 → x.desc.length = 136 := fun x hx => hp x (by simp [hx])
    rw [scan, h1, Res.bind_ok, h2]
    by_cases c1 : n.name = CORE ∧ n.type = NT_PRSTATUS
    · have hst : isStatus n = true := by
        unfold isStatus; simpa [CORE, NT_PRSTATUS] using c1
      have hl := hs n (by simp) hst
      have hro := represents_obj d n hr' (by intro h; rw [h] at hl; simp at hl)
      rw [hl] at hro
      rw [if_pos c1, hro, Res.bind_ok, ih _ _ _ hs' hp']
      rw [show index (n :: ns) i m = index ns (i + 1) (if isStatus n = true then OMap.assign (noteId n) i m else m) from rfl,
        show lastInfo (n :: ns) info = lastInfo ns (if n.name = CORE ∧ n.type = 3 then n.desc else info) from rfl]
      rw [if_pos hst, if_neg (by rw [c1.2]; rintro ⟨_, h⟩; simp [NT_PRSTATUS] at h)]
      have : field n.desc 32 4 = noteId n := by
        unfold field
        rw [load_eq]; rfl
      rw [this]
    · have hst : isStatus n = false := by
        unfold isStatus
        rw [decide_eq_false_iff_not]
        intro h; exact c1 h
      rw [if_neg c1]
      by_cases c2 : n.name = CORE ∧ n.type = NT_PRPSINFO
      · have hl := hp n (by simp) c2.1 c2.2
        have hro := represents_obj d n hr' (by intro h; rw [h] at hl; simp at hl)
        rw [hl] at hro
        rw [if_pos c2, hro, Res.bind_ok, ih _ _ _ hs' hp']
        rw [show index (n :: ns) i m = index ns (i + 1) (if isStatus n = true then OMap.assign (noteId n) i m else m) from rfl,
          show lastInfo (n :: ns) info = lastInfo ns (if n.name = CORE ∧ n.type = 3 then n.desc else info) from rfl]
        rw [hst, if_pos (show n.name = CORE ∧ n.type = 3 from c2)]
        rfl
      · rw [if_neg c2, ih _ _ _ hs' hp']
        rw [show index (n :: ns) i m = index ns (i + 1) (if isStatus n = true then OMap.assign (noteId n) i m else m) from rfl,
          show lastInfo (n :: ns) info = lastInfo ns (if n.name = CORE ∧ n.type = 3 then n.desc else info) from rfl]
        rw [hst, if_neg (show ¬ (n.name = CORE ∧ n.type = 3) from c2)]
        rfl

theorem index_append (a b : List NoteVal) : ∀ i m, index (a ++ b) i m = index b (i + a.length) (index a i m) := by
  induction a with
  | nil => intro i m; rfl
  | cons n a ih =>
    intro i m
    show index (a ++ b) (i + 1) _ = _
    rw [ih]
    show _ = index b (i + (a.length + 1)) (index a (i + 1) _)
    congr 1; omega

theorem index_sorted (ns : List NoteVal) : ∀ i m, OMap.Sorted m → OMap.Sorted (index ns i m) := by
  induction ns with
  | nil => intro i m h; exact h
  | cons n ns ih =>
    intro i m h
    unfold index
    apply ih
    split
    · exact OMap.sorted_assign h
    · exact h

theorem index_other (ns : List NoteVal) (k : Nat) : ∀ i m, OMap.Sorted m → (∀ n ∈ ns, isStatus n = true → noteId n ≠ k) →
    OMap.lookup k (index ns i m) = OMap.lookup k m := by
  induction ns with
  | nil => intro i m _ _; rfl
  | cons n ns ih =>
    intro i m hs h
    unfold index
    split
    · rename_i hst
      rw [ih _ _ (OMap.sorted_assign hs) (fun x hx => h x (by simp [hx])), OMap.lookup_assign hs, if_neg]
      intro he
      exact h n (by simp) hst he.symm
    · exact ih _ _ hs (fun x hx => h x (by simp [hx]))

/-- The notes of one thread. -/
def threadNotes (t : ThreadNotes) : List NoteVal := ⟨[0x43#8, 0x4f#8, 0x52#8, 0x45#8], 1, t.status⟩ :: t.others

theorem status_isStatus (t : ThreadNotes) : isStatus ⟨[0x43#8, 0x4f#8, 0x52#8, 0x45#8], 1, t.status⟩ = true := by
  simp [isStatus]

/-- A status note among the notes of threads is one of theirs. -/
theorem status_of_threads {ts : List ThreadNotes} (ho : ∀ t ∈ ts, ∀ n ∈ t.others, isStatus n = false) {n : NoteVal}
    (hn : n ∈ (ts.map threadNotes).flatten) (hs : isStatus n = true) : ∃ t ∈ ts, n.desc = t.status := by
  rw [List.mem_flatten] at hn
  obtain ⟨l, h1, h2⟩ := hn
  obtain ⟨t, ht, rfl⟩ := List.mem_map.1 h1
  rcases List.mem_cons.1 h2 with rfl | h2
  · exact ⟨t, ht, rfl⟩
  · rw [ho t ht n h2] at hs; cases hs

theorem regs_others (code size : Nat) (hc : code ≠ 1) (others tail : List NoteVal) (ho : ∀ n ∈ others, isStatus n = false)
    (ht : tail = [] ∨ ∃ n rest, tail = n :: rest ∧ isStatus n = true) : ∀ (d : NoteDesc) (ds : List NoteDesc) (x : NoteVal),
    Each Represents (d :: ds) (x :: (others ++ tail)) → x.type ≠ code →
      regsFrom code size (d :: ds) = .ok (((others.find? (fun n => n.type = code)).map (·.desc.take size)).getD []) := by
  induction others with
  | nil =>
    intro d ds x h hx
    cases h with
    | cons hr hrest =>
      rw [regsFrom.eq_def]
      simp only
      rw [if_neg (by rw [hr.2.1]; exact hx)]
      rcases ht with rfl | ⟨n, rest, rfl, hn⟩
      · cases hrest; rfl
      · cases hrest with
        | cons hn' _ =>
          unfold isStatus at hn
          rw [decide_eq_true_eq] at hn
          simp only [startsThread]
          rw [if_pos (by rw [hn'.2.1]; exact hn.2), hn'.1, Res.bind_ok, Res.bind_ok, if_pos (decide_eq_true (by simpa [CORE] using hn.1))]
          rfl
  | cons o others ih =>
    intro d ds x h hx
    have hof := ho o (by simp)
    cases h with
    | cons hr hrest =>
      cases hrest with
      | cons hro hrest' =>
        rename_i m ms
        rw [show regsFrom code size (d :: m :: ms) = if d.note.type = code then
            if code = NT_PRSTATUS then d.data.readObj 0 336 >>= fun prstatus => .ok ((prstatus.drop 112).take (min size 216))
            else d.data.read 0 (min size d.data.size)
          else startsThread m >>= fun last => if last = true then .ok [] else regsFrom code size (m :: ms) from by
            rw [regsFrom.eq_def]; rfl]
        rw [if_neg (by rw [hr.2.1]; exact hx)]
        have hlast : startsThread m = .ok false := by
          unfold startsThread
          split
          · rename_i hty
            rw [hro.1, Res.bind_ok]
            congr 1
            rw [decide_eq_false_iff_not]
            intro hn
            unfold isStatus at hof
            rw [decide_eq_false_iff_not] at hof
            exact hof ⟨hn, by rw [← hro.2.1]; exact hty⟩
          · rfl
        rw [hlast, Res.bind_ok, if_neg (by simp)]
        by_cases hoc : o.type = code
        · rw [regsFrom.eq_def]
          simp only
          rw [if_pos (by rw [hro.2.1]; exact hoc), if_neg (by simpa [NT_PRSTATUS] using hc)]
          rw [List.find?_cons_of_pos (by simpa using hoc)]
          simp only [Option.map_some, Option.getD_some]
          obtain ⟨hl, h64⟩ := content_length _ hro.2.2.1
          rw [read_content _ hro.2.2.1 0 _ (by omega) (by omega), List.drop_zero, hro.2.2.2]
          congr 1
          rw [hro.2.2.2] at hl
          rw [← hl]
          rcases Nat.le_total size o.desc.length with h | h
          · rw [Nat.min_eq_left h]
          · rw [Nat.min_eq_right h, List.take_length, List.take_of_length_le h]
        · rw [List.find?_cons_of_neg (by simpa using hoc)]
          exact ih (fun n hn => ho n (by simp [hn])) m ms o (.cons hro hrest') hoc

theorem each_drop {α β : Type} {R : α → β → Prop} {as : List α} {bs : List β} (h : Each R as bs) : ∀ n, Each R (as.drop n) (bs.drop n) := by
  induction h with
  | nil => intro n; simp; exact .nil
  | cons hab hr ih =>
    intro n
    cases n with
    | zero => exact .cons hab hr
    | succ n => exact ih n

/-- C52, from the notes. -/
theorem C52_from_notes (ds : List NoteDesc) (pre : List NoteVal) (ts : List ThreadNotes) (hg : GoodCore pre ts)
    (h : Each Represents ds (coreNotes pre ts)) :
    ∃ s, construct ds = .ok s ∧
      (listLWPs s).Pairwise (· < ·) ∧ (∀ k, k ∈ listLWPs s ↔ ∃ t ∈ ts, t.id = k) ∧
      (∀ t ∈ ts, ∀ size, getRegs s t.id 1 size = .ok (t.gregs.take size) ∧
        ∀ code, code ≠ 1 → getRegs s t.id code size = .ok (((t.others.find? (fun n => n.type = code)).map (·.desc.take size)).getD [])) ∧
      (∀ k, (∀ t ∈ ts, t.id ≠ k) → ∀ code size, getRegs s k code size = .ok []) := by
  have hcn : coreNotes pre ts = pre ++ (ts.map threadNotes).flatten := rfl
  have hstat : ∀ n ∈ coreNotes pre ts, isStatus n = true → ∃ t ∈ ts, n.desc = t.status := by
    intro n hn hs
    rw [hcn] at hn
    rcases List.mem_append.1 hn with hn | hn
    · rw [hg.before n hn] at hs; cases hs
    · exact status_of_threads hg.others hn hs
  have hsc := scan_spec ds ds _ h 0 [] (List.replicate 136 0#8)
    (fun n hn hs => by obtain ⟨t, ht, he⟩ := hstat n hn hs; rw [he]; exact hg.status t ht) hg.psinfo
  have hnil : OMap.Sorted ([] : OMap Nat) := List.Pairwise.nil
  have hsorted := index_sorted (coreNotes pre ts) 0 [] hnil
  have hnone : ∀ k, (∀ t ∈ ts, t.id ≠ k) → OMap.lookup k (index (coreNotes pre ts) 0 []) = none := by
    intro k hk
    rw [index_other _ k 0 [] hnil]
    · rfl
    · intro n hn hs
      obtain ⟨t, ht, he⟩ := hstat n hn hs
      have := hk t ht
      unfold noteId
      rw [he]; exact this
  -- the place of a thread
  have hplace : ∀ t ∈ ts, ∃ a b, coreNotes pre ts = a ++ threadNotes t ++ b ∧ (b = [] ∨ ∃ n rest, b = n :: rest ∧ isStatus n = true) ∧
      OMap.lookup t.id (index (coreNotes pre ts) 0 []) = some a.length := by
    intro t ht
    obtain ⟨us, vs, rfl⟩ := List.append_of_mem ht
    refine ⟨pre ++ (us.map threadNotes).flatten, (vs.map threadNotes).flatten, ?_, ?_, ?_⟩
    · rw [hcn]; simp
    · cases vs with
      | nil => exact .inl rfl
      | cons v vs => exact .inr ⟨_, _, rfl, status_isStatus v⟩
    · have hids := hg.ids
      rw [List.pairwise_append] at hids
      have e : coreNotes pre (us ++ t :: vs) = (pre ++ (us.map threadNotes).flatten) ++
          (⟨[0x43#8, 0x4f#8, 0x52#8, 0x45#8], 1, t.status⟩ :: (t.others ++ (vs.map threadNotes).flatten)) := by
        rw [hcn]; simp [threadNotes]
      rw [e, index_append]
      generalize pre ++ (us.map threadNotes).flatten = A
      show OMap.lookup t.id (index (t.others ++ (vs.map threadNotes).flatten) (0 + A.length + 1) _) = _
      rw [index_other]
      · rw [if_pos (status_isStatus t), OMap.lookup_assign (index_sorted _ _ _ hnil)]
        have : noteId ⟨[0x43#8, 0x4f#8, 0x52#8, 0x45#8], 1, t.status⟩ = t.id := rfl
        rw [this, if_pos rfl, Nat.zero_add]
      · rw [if_pos (status_isStatus t)]
        exact OMap.sorted_assign (index_sorted _ _ _ hnil)
      · intro n hn hs
        rcases List.mem_append.1 hn with hn | hn
        · rw [hg.others t (by simp) n hn] at hs; cases hs
        · obtain ⟨v, hv, he⟩ := status_of_threads (fun x hx => hg.others x (by simp [hx])) hn hs
          have := (List.pairwise_cons.1 hids.2.1).1 v hv
          unfold noteId
          rw [he]
          intro h; exact this h.symm
  refine ⟨⟨index (coreNotes pre ts) 0 [], lastInfo (coreNotes pre ts) (List.replicate 136 0#8), ds⟩, hsc, ?_, ?_, ?_, ?_⟩
  · show ((index (coreNotes pre ts) 0 []).map (·.1)).Pairwise (· < ·)
    rw [List.pairwise_map]
    exact hsorted
  · intro k
    show k ∈ (index (coreNotes pre ts) 0 []).map (·.1) ↔ _
    constructor
    · intro hk
      obtain ⟨⟨k', v⟩, h1, h2⟩ := List.mem_map.1 hk
      simp only at h2
      subst h2
      have hl := (OMap.lookup_iff hsorted).2 h1
      by_cases hex : ∃ t ∈ ts, t.id = k'
      · exact hex
      · rw [hnone k' (fun t ht he => hex ⟨t, ht, he⟩)] at hl; cases hl
    · rintro ⟨t, ht, rfl⟩
      obtain ⟨a, _, _, _, hl⟩ := hplace t ht
      exact List.mem_map.2 ⟨_, (OMap.lookup_iff hsorted).1 hl, rfl⟩
  · intro t ht size
    obtain ⟨a, b, hab, hb, hl⟩ := hplace t ht
    have hlen : t.status.length = 336 := hg.status t ht
    have hd := each_drop h a.length
    rw [hab, List.append_assoc, List.drop_left] at hd
    unfold getRegs
    simp only [hl]
    generalize ds.drop a.length = es at hd
    have hd' : Each Represents es (⟨[0x43#8, 0x4f#8, 0x52#8, 0x45#8], 1, t.status⟩ :: (t.others ++ b)) := by
      simpa [threadNotes] using hd
    constructor
    · cases hd' with
      | cons hr hrest =>
        rw [regsFrom.eq_def]
        simp only
        rw [if_pos (by rw [hr.2.1]), if_pos (by rfl)]
        have hro := represents_obj _ _ hr (by intro h; simp only at h; rw [h] at hlen; simp at hlen)
        simp only at hro
        rw [hlen] at hro
        rw [hro, Res.bind_ok]
        show Res.ok _ = Res.ok _
        congr 1
        unfold ThreadNotes.gregs
        rw [List.take_take]
    · intro code hcode
      cases hes : es with
      | nil => rw [hes] at hd'; cases hd'
      | cons e es' =>
        rw [hes] at hd'
        exact regs_others code size hcode t.others b (hg.others t ht) hb e es' _ hd' (by simpa using fun h => hcode h.symm)
  · intro k hk code size
    unfold getRegs
    simp only [hnone k hk]

/-- C52. For every core file: the threads listed are exactly those recorded, in order of id, and the register set of each kind read
for a thread is the one recorded for that thread - its general registers from its status record, others from the first note
of that type between its status record and the next. Nothing is returned for other threads or sets not recorded. -/
theorem C52_core_registers (io : Rdr) (h : io.WF) (h64 : io.size < 2 ^ 64 - 1) (segs : List (Phdr × List NoteVal))
    (hs : ∀ s ∈ segs, s.2 ≠ [] ∧ SegmentHolds io.content s.1 s.2) (pre : List NoteVal) (ts : List ThreadNotes) (hg : GoodCore pre ts)
    (hc : (segs.map (·.2)).flatten = coreNotes pre ts) :
    ∃ ds s, segmentNotes io (segs.map (·.1)) = .ok ds ∧ construct ds = .ok s ∧
      (listLWPs s).Pairwise (· < ·) ∧ (∀ k, k ∈ listLWPs s ↔ ∃ t ∈ ts, t.id = k) ∧
      (∀ t ∈ ts, ∀ size, getRegs s t.id 1 size = .ok (t.gregs.take size) ∧
        ∀ code, code ≠ 1 → getRegs s t.id code size = .ok (((t.others.find? (fun n => n.type = code)).map (·.desc.take size)).getD [])) ∧
      (∀ k, (∀ t ∈ ts, t.id ≠ k) → ∀ code size, getRegs s k code size = .ok []) := by
  obtain ⟨ds, h1, h2⟩ := C32_notes_partial io h h64 segs hs
  rw [hc] at h2
  obtain ⟨s, h3⟩ := C52_from_notes ds pre ts hg h2
  exact ⟨ds, s, h1, h3⟩

/-! ## C53 -/

/-- A string of a view that extends to the end of everything. -/
theorem view_string (r : Rdr) (h : r.WF) (s off : Nat) (h0 : 0 < s + off) (str rest : List Byte) (hz : ∀ b ∈ str, b ≠ 0#8)
    (hd : r.content.drop (s + off) = str ++ 0#8 :: rest) : (r.view s maxOff).readString off = .ok str := by
  obtain ⟨b, k, h1, h2, h3, h4, h5⟩ := root_spec r h
  obtain ⟨hbl, hb64⟩ := content_length b h2
  have hlen := congrArg List.length hd
  rw [List.length_drop, (content_length r h).1] at hlen
  simp only [List.length_append, List.length_cons] at hlen
  have hb : ∃ more, b.content.drop (k + (s + off)) = str ++ 0#8 :: more := by
    rw [h4, List.drop_take, List.drop_drop] at hd
    refine ⟨rest ++ (b.content.drop (k + (s + off))).drop (r.size - (s + off)), ?_⟩
    conv => lhs; rw [← List.take_append_drop (r.size - (s + off)) (b.content.drop (k + (s + off)))]
    rw [hd]; simp
  obtain ⟨more, hm⟩ := hb
  rw [h5 s maxOff (by omega)]
  generalize r.size = S at *
  cases b with
  | null => exact h1.elim
  | window _ _ _ => exact h1.elim
  | mem buf st sz =>
    show memString buf (st + (k + s) + off) = _
    simp only [Rdr.content] at hm
    rw [List.drop_take, List.drop_drop] at hm
    refine memString_prefix buf str (more ++ (buf.drop (st + (k + (s + off)))).drop (sz - (k + (s + off)))) _ hz ?_
    rw [show st + (k + s) + off = st + (k + (s + off)) by omega]
    conv => lhs; rw [← List.take_append_drop (sz - (k + (s + off))) (buf.drop (st + (k + (s + off))))]
    rw [hm]; simp
  | file d =>
    simp only [Rdr.size] at h3 hb64
    show readString (fun o => (Rdr.file d).read o 1) (Rdr.file d).size ((off + (k + s)) % W64) = _
    rw [Nat.mod_eq_of_lt (by omega), readString_file (.file d) h2 _ (by omega), show off + (k + s) = k + (s + off) by omega, hm]
    congr 1
    exact takeWhile_prefix str more hz

/-- The entry of a mapping. -/
def entryOf (f : FileMapping) : List Byte × FileEntry := (f.path, ⟨f.start, f.stop, f.page⟩)

theorem named_spec (r : Rdr) (h : r.WF) (s : Nat) (h0 : 0 < s) (fs : List FileMapping) : ∀ off, (∀ f ∈ fs, FileFits f) →
    r.content.drop (s + off) = (fs.map (fun f => f.path ++ [0#8])).flatten →
    named (r.view s maxOff) (fs.map (fun f => ⟨f.start, f.stop, f.page⟩)) off = .ok (fs.map entryOf) := by
  induction fs with
  | nil => intro off _ _; rfl
  | cons f fs ih =>
    intro off hf hd
    rw [List.map_cons, List.flatten_cons, List.append_assoc] at hd
    rw [List.map_cons, named, view_string r h s off (by omega) f.path _ (hf f (by simp)).2.2.2 hd, Res.bind_ok,
      ih (off + f.path.length + 1) (fun g hg => hf g (by simp [hg])) ?_, Res.bind_ok]
    · rfl
    · rw [show s + (off + f.path.length + 1) = (s + off) + (f.path.length + 1) by omega, ← List.drop_drop, hd,
        ← List.append_assoc, List.drop_left' (by simp)]

/-- The bytes of a range entry. -/
def rangeBytes (f : FileMapping) : List Byte := leBytes 8 f.start ++ leBytes 8 f.stop ++ leBytes 8 f.page

theorem range_decode (f : FileMapping) (h : FileFits f) : FileEntry.decode (rangeBytes f) = ⟨f.start, f.stop, f.page⟩ := by
  unfold FileEntry.decode rangeBytes
  have g0 := field_at [] (leBytes 8 f.stop ++ leBytes 8 f.page) 0 8 f.start rfl h.1
  have g1 := field_at (leBytes 8 f.start) (leBytes 8 f.page) 8 8 f.stop (leBytes_length ..) h.2.1
  have g2 := field_at (leBytes 8 f.start ++ leBytes 8 f.stop) [] 16 8 f.page (by simp [leBytes_length]) h.2.2.1
  rw [List.append_nil] at g2
  rw [List.nil_append] at g0
  rw [← List.append_assoc] at g0 g1
  rw [g0, g1, g2]

/-- C53. For every core file with an NT_FILE note: the mapped files read from it are exactly those recorded, in order, each with its
range, its offset and its own path. -/
theorem C53_mapped_files (ds : List NoteDesc) (ns before after : List NoteVal) (h : Each Represents ds ns) (n : NoteVal)
    (hns : ns = before ++ n :: after) (hb : ∀ x ∈ before, ¬ (x.name = [0x43#8, 0x4f#8, 0x52#8, 0x45#8] ∧ x.type = 0x46494c45))
    (hn : n.name = [0x43#8, 0x4f#8, 0x52#8, 0x45#8] ∧ n.type = 0x46494c45) (pageSize : Nat) (hps : pageSize < 2 ^ 64) (fs : List FileMapping)
    (hf : ∀ f ∈ fs, FileFits f) (hd : n.desc = fileNote pageSize fs) (h64 : n.desc.length + 1024 < 2 ^ 64) :
    fileEntries ds = .ok (fs.map (fun f => (f.path, ⟨f.start, f.stop, f.page⟩))) := by
  subst hns
  induction before generalizing ds with
  | cons x before ih =>
    cases h with
    | cons hr hrest =>
      have hx := hb x (by simp)
      rw [fileEntries, hr.1, Res.bind_ok, if_neg (by rw [hr.2.1]; exact hx)]
      exact ih _ (fun y hy => hb y (by simp [hy])) hrest
  | nil =>
    cases h with
    | cons hr hrest =>
      rename_i d ds
      obtain ⟨h1, h2, h3, h4⟩ := hr
      rw [fileEntries, h1, Res.bind_ok, if_pos (by rw [h2]; exact hn)]
      rw [hd] at h4
      have hcl := (content_length _ h3).1
      rw [h4, ← hd] at hcl
      have hrl : ∀ e ∈ fs.map rangeBytes, e.length = 24 := by
        intro e he
        obtain ⟨f, _, rfl⟩ := List.mem_map.1 he
        simp [rangeBytes, leBytes_length]
      have hfl := flatten_length 24 _ hrl
      rw [List.length_map] at hfl
      have hfile : fileNote pageSize fs = (leBytes 8 fs.length ++ leBytes 8 pageSize) ++
          ((fs.map rangeBytes).flatten ++ (fs.map (fun f => f.path ++ [0#8])).flatten) := by
        show leBytes 8 fs.length ++ leBytes 8 pageSize ++ (fs.map rangeBytes).flatten ++ _ = _
        rw [List.append_assoc]
      have hdl : n.desc.length = 16 + (fs.length * 24 + ((fs.map (fun f => f.path ++ [0#8])).flatten).length) := by
        rw [hd, hfile]
        simp only [List.length_append, leBytes_length, hfl]
      have hcount : fs.length < 256 ^ 8 := by omega
      have hro := readObj_at d.data h3 0 (leBytes 8 fs.length ++ leBytes 8 pageSize) _ (by rw [List.drop_zero, h4, hfile])
        (by simp [leBytes])
      rw [show (leBytes 8 fs.length ++ leBytes 8 pageSize).length = 16 by simp [leBytes_length]] at hro
      have hfield : field (leBytes 8 fs.length ++ leBytes 8 pageSize) 0 8 = fs.length :=
        field_at [] (leBytes 8 pageSize) 0 8 fs.length rfl hcount
      simp only
      rw [hro, Res.bind_ok, hfield]
      rw [Nat.mod_eq_of_lt (a := fs.length * 24) (by rw [W64_eq]; omega), Nat.mod_eq_of_lt (by rw [W64_eq]; omega)]
      obtain ⟨v1, v2⟩ := view_content d.data h3 16 (fs.length * 24) (by unfold maxOff; rw [W64_eq]; omega) (by omega)
      have hvc : (d.data.view 16 (fs.length * 24)).content = (fs.map rangeBytes).flatten := by
        rw [v2, h4, hfile, List.drop_left' (by simp [leBytes_length]), List.take_left' hfl]
      have hvs : (d.data.view 16 (fs.length * 24)).size = fs.length * 24 := by
        rw [← (content_length _ v1).1, hvc, hfl]
      rw [readerArray_rdr _ v1 24 (1024 / 24) (by decide) (by decide) (by rw [hvs, W64_eq]; omega) _ hvc hrl, Res.bind_ok, List.map_map]
      have hmap : fs.map (FileEntry.decode ∘ rangeBytes) = fs.map (fun f => ⟨f.start, f.stop, f.page⟩) :=
        List.map_congr_left (fun f hf' => range_decode f (hf f hf'))
      rw [hmap]
      refine named_spec d.data h3 (16 + fs.length * 24) (by omega) fs 0 hf ?_
      rw [Nat.add_zero, h4, hfile, ← List.append_assoc, List.drop_left' (by simp only [List.length_append, leBytes_length, hfl])]

/-- C53, from the core file: the note segments hold an NT_FILE note (the first, if several). -/
theorem C53_core_files (io : Rdr) (h : io.WF) (h64 : io.size < 2 ^ 64 - 1025) (segs : List (Phdr × List NoteVal))
    (hs : ∀ s ∈ segs, s.2 ≠ [] ∧ SegmentHolds io.content s.1 s.2) (before after : List NoteVal) (n : NoteVal)
    (hns : (segs.map (·.2)).flatten = before ++ n :: after)
    (hb : ∀ x ∈ before, ¬ (x.name = [0x43#8, 0x4f#8, 0x52#8, 0x45#8] ∧ x.type = 0x46494c45))
    (hn : n.name = [0x43#8, 0x4f#8, 0x52#8, 0x45#8] ∧ n.type = 0x46494c45) (pageSize : Nat) (hps : pageSize < 2 ^ 64)
    (fs : List FileMapping) (hf : ∀ f ∈ fs, FileFits f) (hd : n.desc = fileNote pageSize fs) (hdl : n.desc.length < 2 ^ 32) :
    ∃ ds, segmentNotes io (segs.map (·.1)) = .ok ds ∧ fileEntries ds = .ok (fs.map (fun f => (f.path, ⟨f.start, f.stop, f.page⟩))) := by
  obtain ⟨ds, h1, h2⟩ := C32_notes_partial io h (by omega) segs hs
  exact ⟨ds, h1, C53_mapped_files ds _ before after h2 n hns hb hn pageSize hps fs hf hd (by omega)⟩

/-- A core: one segment of notes - process description, mapped files, and two threads, 7 and 5, the second with floating point
registers. -/
def C52_status (id : Nat) (reg : Byte) : List Byte :=
  List.replicate 32 0#8 ++ leBytes 4 id ++ List.replicate 76 0#8 ++ List.replicate 216 reg ++ List.replicate 8 0#8
def C52_pre : List NoteVal :=
  [⟨CORE, 3, List.replicate 24 0#8 ++ leBytes 4 7 ++ List.replicate 108 0#8⟩,
   ⟨CORE, 0x46494c45, fileNote 4096 [⟨[0x2f#8, 0x61#8], 0x1000, 0x3000, 1⟩, ⟨[], 0x4000, 0x5000, 2⟩]⟩]
def C52_threads : List ThreadNotes := [⟨C52_status 7 1#8, []⟩, ⟨C52_status 5 2#8, [⟨CORE, 2, [9#8, 8#8, 7#8]⟩]⟩]
def C52_file : Rdr := .file ([7#8, 7#8] ++ ((coreNotes C52_pre C52_threads).map noteBytes).flatten ++ [5#8])
def C52_phdr : Phdr := ⟨4, 4, 2, 0, 0, ((coreNotes C52_pre C52_threads).map noteBytes).flatten.length, 0, 4⟩

/-- The hypotheses of C52 and C53 hold of it. -/
theorem C52_hypotheses : C52_file.WF ∧ C52_file.size < 2 ^ 64 - 1025 ∧ GoodCore C52_pre C52_threads ∧
    ∀ s ∈ [(C52_phdr, coreNotes C52_pre C52_threads)], s.2 ≠ [] ∧ SegmentHolds C52_file.content s.1 s.2 := by
  refine ⟨by simp only [C52_file, Rdr.WF]; decide +kernel, by decide +kernel, ⟨?_, ?_, ?_, ?_, ?_⟩, ?_⟩
  · decide +kernel
  · decide +kernel
  · decide +kernel
  · decide +kernel
  · decide +kernel
  · intro s hs
    simp only [List.mem_cons, List.not_mem_nil, or_false] at hs
    subst hs
    refine ⟨by decide, by decide +kernel, by decide +kernel, ?_⟩
    unfold NoteFits
    decide +kernel

theorem C52_example :
    (segmentNotes C52_file [C52_phdr] >>= construct >>= fun s => .ok (listLWPs s, getPID s)) = .ok ([5, 7], 7) ∧
    (segmentNotes C52_file [C52_phdr] >>= construct >>= fun s => getRegs s 7 1 16) = .ok (List.replicate 16 1#8) ∧
    (segmentNotes C52_file [C52_phdr] >>= construct >>= fun s => getRegs s 5 1 300) = .ok (List.replicate 216 2#8) ∧
    (segmentNotes C52_file [C52_phdr] >>= construct >>= fun s => getRegs s 5 2 512) = .ok [9#8, 8#8, 7#8] ∧
    (segmentNotes C52_file [C52_phdr] >>= construct >>= fun s => getRegs s 7 2 512) = .ok [] := by
  decide +kernel

theorem C53_example : (segmentNotes C52_file [C52_phdr] >>= fileEntries) =
    .ok [([0x2f#8, 0x61#8], ⟨0x1000, 0x3000, 1⟩), ([], ⟨0x4000, 0x5000, 2⟩)] := by
  decide +kernel

/-! ## C54 -/

theorem entries_spec (fs : List (List Byte × FileEntry)) (hd : fs.Pairwise (fun a b => a.2.start ≠ b.2.start)) :
    OMap.Sorted (fs.foldl (fun m f => OMap.assign f.2.start f m) []) ∧
    ∀ k f, (k, f) ∈ fs.foldl (fun m f => OMap.assign f.2.start f m) [] ↔ f ∈ fs ∧ f.2.start = k := by
  suffices h : ∀ (fs : List (List Byte × FileEntry)) (m : OMap (List Byte × FileEntry)), OMap.Sorted m →
      fs.Pairwise (fun a b => a.2.start ≠ b.2.start) →
      OMap.Sorted (fs.foldl (fun m f => OMap.assign f.2.start f m) m) ∧
      ∀ k f, (k, f) ∈ fs.foldl (fun m f => OMap.assign f.2.start f m) m ↔ (f ∈ fs ∧ f.2.start = k) ∨ ((k, f) ∈ m ∧ ∀ g ∈ fs, g.2.start ≠ k) by
    obtain ⟨h1, h2⟩ := h fs [] List.Pairwise.nil hd
    refine ⟨h1, fun k f => ?_⟩
    rw [h2]; simp
  intro fs
  induction fs with
  | nil => intro m hm _; exact ⟨hm, by simp⟩
  | cons g fs ih =>
    intro m hm hp
    obtain ⟨p1, p2⟩ := List.pairwise_cons.1 hp
    rw [List.foldl_cons]
    obtain ⟨h1, h2⟩ := ih _ (OMap.sorted_assign hm) p2
    refine ⟨h1, fun k f => ?_⟩
    rw [h2, OMap.mem_assign hm]
    constructor
    · rintro (⟨a, b⟩ | ⟨a | a, b⟩)
      · exact .inl ⟨by simp [a], b⟩
      · simp only [Prod.mk.injEq] at a
        exact .inl ⟨by simp [a.2], by rw [a.1, a.2]⟩
      · refine .inr ⟨a.1, ?_⟩
        intro x hx
        rcases List.mem_cons.1 hx with rfl | hx
        · exact fun h => a.2 h.symm
        · exact b x hx
    · rintro (⟨a, b⟩ | ⟨a, b⟩)
      · rcases List.mem_cons.1 a with rfl | a
        · refine .inr ⟨.inl (by rw [← b]), ?_⟩
          intro x hx h
          exact p1 x hx (by rw [b, h])
        · exact .inl ⟨a, b⟩
      · exact .inr ⟨.inr ⟨a, fun h => b g (by simp) h.symm⟩, fun x hx => b x (by simp [hx])⟩

theorem takeWhile_le {α : Type} (m : OMap α) (v : Nat) :
    m.takeWhile (fun e => decide (e.1 ≤ v)) = OMap.below (v + 1) m := by
  unfold OMap.below
  congr 1
  funext e
  apply decide_eq_decide.2
  omega

theorem segmentFile_spec (fs : List (List Byte × FileEntry)) (hd : fs.Pairwise (fun a b => a.2.start ≠ b.2.start)) (ps v sz : Nat)
    (h64 : v + sz < 2 ^ 64) (r : List Byte × Nat × Nat)
    (hr : r = segmentFile (fs.foldl (fun m f => OMap.assign f.2.start f m) []) ps v sz) :
    (∃ f ∈ fs, f.2.start = v ∧ f.2.stop ≤ v + sz ∧ r = (f.1, (f.2.fileOff * ps) % 2 ^ 64, 1)) ∨
    ((¬ ∃ f ∈ fs, f.2.start = v ∧ f.2.stop ≤ v + sz) ∧ r = ([], 0, 0)) := by
  obtain ⟨hs, hm⟩ := entries_spec fs hd
  generalize fs.foldl (fun m f => OMap.assign f.2.start f m) [] = m at *
  unfold segmentFile at hr
  rw [takeWhile_le m, Nat.mod_eq_of_lt (by rw [W64_eq]; exact h64)] at hr
  cases hl : (OMap.below (v + 1) m).getLast? with
  | none =>
    rw [hl] at hr
    refine .inr ⟨?_, hr⟩
    rintro ⟨f, h1, h2, _⟩
    have := OMap.below_none hs hl _ ((hm v f).2 ⟨h1, h2⟩)
    simp at this
    omega
  | some e =>
    obtain ⟨k, p, e⟩ := e
    rw [hl] at hr
    obtain ⟨b1, b2, b3⟩ := OMap.below_last hs hl
    obtain ⟨c1, c2⟩ := (hm _ _).1 b1
    simp only at b2 b3 c2 hr
    by_cases hc : k ≥ v ∧ e.stop ≤ v + sz
    · rw [if_pos hc] at hr
      exact .inl ⟨(p, e), c1, by simp only; omega, hc.2, by rw [hr, W64_eq]⟩
    · rw [if_neg hc] at hr
      refine .inr ⟨?_, hr⟩
      rintro ⟨f, h1, h2, h3⟩
      have hf := (hm v f).2 ⟨h1, h2⟩
      have := b3 _ hf (by simp only; omega)
      simp only at this
      have hk : k = v := by omega
      subst hk
      have := OMap.sorted_inj hs b1 hf rfl
      simp only [Prod.mk.injEq, true_and] at this
      rw [← this] at h3
      exact hc ⟨Nat.le_refl _, h3⟩

/-- C54. The address space of a core has exactly one range for each loadable segment, in their order: its addresses, the part of it
that is in the core, its permissions; and if the core records a file mapping that starts there and does not reach beyond it, that
file's path and byte offset. -/
theorem C54_address_space (fs : List (List Byte × FileEntry)) (hd : fs.Pairwise (fun a b => a.2.start ≠ b.2.start)) (ps : Nat)
    (loads : List Phdr) (h64 : ∀ p ∈ loads, p.vaddr + p.memsz < 2 ^ 64 ∧ p.filesz ≤ p.memsz) :
    (addressSpace fs ps loads).length = loads.length ∧
    ∀ (i : Nat) (p : Phdr), loads[i]? = some p → ∃ r : CoreNotes.Range, (addressSpace fs ps loads)[i]? = some r ∧
      r.start = p.vaddr ∧ r.stop = p.vaddr + p.memsz ∧ r.fileStop = p.vaddr + p.filesz ∧
      r.exec = p.flags.testBit 0 ∧ r.write = p.flags.testBit 1 ∧ r.read = p.flags.testBit 2 ∧
      ((∃ f ∈ fs, f.2.start = p.vaddr ∧ f.2.stop ≤ p.vaddr + p.memsz ∧ r.path = f.1 ∧ r.offset = (f.2.fileOff * ps) % 2 ^ 64 ∧ r.inode = 1) ∨
       ((¬ ∃ f ∈ fs, f.2.start = p.vaddr ∧ f.2.stop ≤ p.vaddr + p.memsz) ∧ r.path = [] ∧ r.offset = 0 ∧ r.inode = 0)) := by
  refine ⟨by simp [addressSpace], ?_⟩
  intro i p hp
  obtain ⟨q1, q2⟩ := h64 p (List.mem_of_getElem? hp)
  have hbit : ∀ (n k : Nat), decide (n &&& 2 ^ k ≠ 0) = n.testBit k := by
    intro n k
    cases hb : n.testBit k with
    | true =>
      refine decide_eq_true fun h0 => ?_
      have := congrArg (fun x : Nat => x.testBit k) h0
      simp [hb, Nat.testBit_two_pow_self] at this
    | false =>
      refine decide_eq_false ?_
      simp only [ne_eq, Decidable.not_not]
      apply Nat.eq_of_testBit_eq
      intro j
      rw [Nat.testBit_and, Nat.testBit_two_pow, Nat.zero_testBit]
      by_cases e : k = j
      · subst e; rw [hb]; rfl
      · simp [e]
  have hsf := segmentFile_spec fs hd ps p.vaddr p.memsz q1 _ rfl
  refine ⟨_, by unfold addressSpace; simp only [List.getElem?_map, hp, Option.map_some]; rfl, ?_, ?_, ?_, ?_, ?_, ?_, ?_⟩
  · rfl
  · exact Nat.mod_eq_of_lt (by rw [W64_eq]; exact q1)
  · exact Nat.mod_eq_of_lt (by rw [W64_eq]; omega)
  · exact hbit p.flags 0
  · exact hbit p.flags 1
  · exact hbit p.flags 2
  · rcases hsf with ⟨f, h1, h2, h3, h4⟩ | ⟨h1, h2⟩
    · refine .inl ⟨f, h1, h2, h3, ?_⟩
      simp only [h4]
      exact ⟨trivial, trivial, trivial⟩
    · refine .inr ⟨h1, ?_⟩
      simp only [h2]
      exact ⟨trivial, trivial, trivial⟩

theorem C54_example : addressSpace [([0x2f#8, 0x61#8], ⟨0x1000, 0x3000, 1⟩), ([0x62#8], ⟨0x4000, 0x9000, 2⟩)] 4096
    [⟨1, 5, 100, 0x1000, 0, 0x1000, 0x2000, 1⟩, ⟨1, 6, 100, 0x4000, 0, 0, 0x1000, 1⟩] =
    [⟨0x1000, 0x3000, 0x2000, 4096, 1, [0x2f#8, 0x61#8], false, true, true⟩, ⟨0x4000, 0x5000, 0x4000, 0, 0, [], true, true, false⟩] := by
  decide +kernel

end Pstack.Props
