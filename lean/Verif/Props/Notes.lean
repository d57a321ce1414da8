import Verif.Proof.SymHash
/-
C32: iteration of ELF notes.
-/
namespace Pstack.Props
open Pstack.Reader Pstack.Elf Pstack.Spec Pstack.Dwarf

/-! ### Views all the way down -/

/-- A file or a block of memory. -/
def Flat : Rdr → Prop
  | .mem _ _ _ => True
  | .file _ => True
  | _ => False

/-- A reader is a range of a file or of a block of memory, and its views are views of that. -/
theorem root_spec (r : Rdr) (h : r.WF) : ∃ b k, Flat b ∧ b.WF ∧ k + r.size ≤ b.size ∧
    r.content = (b.content.drop k).take r.size ∧ ∀ s l, k + s < W64 → r.view s l = b.view (k + s) l := by
  induction r with
  | mem buf st sz =>
    exact ⟨.mem buf st sz, 0, trivial, h, by simp, by simp [Rdr.content, Rdr.size, List.take_take], fun s l _ => by rw [Nat.zero_add]⟩
  | file d => exact ⟨.file d, 0, trivial, h, by simp, by simp [Rdr.content, Rdr.size], fun s l _ => by rw [Nat.zero_add]⟩
  | null => exact h.elim
  | window up o l ih =>
    obtain ⟨b, k, h1, h2, h3, h4, h5⟩ := ih h.1
    have hfit := h.2
    refine ⟨b, k + o, h1, h2, by simp only [Rdr.size] at *; omega, ?_, ?_⟩
    · simp only [Rdr.content, Rdr.size, h4]
      rw [List.drop_take, List.take_take, List.drop_drop]
      congr 1
      simp only [Rdr.size] at hfit; omega
    · intro s l' hlt
      show up.view ((o + s) % W64) l' = _
      rw [Nat.mod_eq_of_lt (by omega), h5 _ _ (by omega), Nat.add_assoc]

theorem takeWhile_prefix (p q : List Byte) (h : ∀ b ∈ p, b ≠ 0#8) :
    (p ++ 0#8 :: q).takeWhile (fun b => decide (b ≠ 0#8)) = p := by
  rw [List.takeWhile_append_of_pos (fun a ha => by simpa using h a ha)]
  simp

/-- A reader at a place of a longer byte string: its string at 12 and its views are those of the bytes there. -/
theorem positioned (io : Rdr) (h : io.WF) (a n b : Nat) (hn : n ≠ maxOff) (hfit : a + n ≤ io.size) (hb : b < n)
    (name rest : List Byte) (hz : ∀ c ∈ name, c ≠ 0#8) (hd : io.content.drop (a + b + 12) = name ++ 0#8 :: rest) :
    ((io.view a n).view b maxOff).readString 12 = .ok name ∧
    ∀ s l, l ≠ maxOff → a + b + s + l ≤ io.size → (((io.view a n).view b maxOff).view s l).WF ∧
      (((io.view a n).view b maxOff).view s l).content = (io.content.drop (a + b + s)).take l := by
  obtain ⟨base, k, h1, h2, h3, h4, h5⟩ := root_spec io h
  obtain ⟨hbl, hb64⟩ := content_length base h2
  have hdrop : ∀ x, x ≤ io.size → io.content.drop x = (base.content.drop (k + x)).take (io.size - x) := by
    intro x hx
    rw [h4, List.drop_take, List.drop_drop]
  have hbase : ∃ rest', base.content.drop (k + (a + b + 12)) = name ++ 0#8 :: rest' := by
    have hle : a + b + 12 ≤ io.size := by
      have := congrArg List.length hd
      rw [List.length_drop, (content_length io h).1] at this
      simp at this; omega
    rw [hdrop _ hle] at hd
    refine ⟨rest ++ (base.content.drop (k + (a + b + 12))).drop (io.size - (a + b + 12)), ?_⟩
    conv => lhs; rw [← List.take_append_drop (io.size - (a + b + 12)) (base.content.drop (k + (a + b + 12)))]
    rw [hd]; simp
  obtain ⟨rest', hrest'⟩ := hbase
  rw [h5 a n (by omega)]
  generalize io.size = S at *
  cases base with
  | null => exact h1.elim
  | window _ _ _ => exact h1.elim
  | mem buf st sz =>
    simp only [Rdr.size] at h3
    obtain ⟨hw1, hw2⟩ := h2
    have hv : (Rdr.view (.mem buf st sz) (k + a) n).view b maxOff = .mem buf (st + (k + a) + b) maxOff := rfl
    rw [hv]
    refine ⟨?_, ?_⟩
    · show memString buf (st + (k + a) + b + 12) = _
      have hbuf : ∃ more, buf.drop (st + (k + a) + b + 12) = name ++ 0#8 :: more := by
        have e : st + (k + a) + b + 12 = st + (k + (a + b + 12)) := by omega
        rw [e]
        simp only [Rdr.content] at hrest'
        rw [List.drop_take, List.drop_drop] at hrest'
        refine ⟨rest' ++ (buf.drop (st + (k + (a + b + 12)))).drop (sz - (k + (a + b + 12))), ?_⟩
        conv => lhs; rw [← List.take_append_drop (sz - (k + (a + b + 12))) (buf.drop (st + (k + (a + b + 12))))]
        rw [hrest']; simp
      obtain ⟨more, hm⟩ := hbuf
      unfold memString
      rw [hm, if_pos (by simp), takeWhile_prefix name more hz]
    · intro s l hl hs
      have hv2 : (Rdr.mem buf (st + (k + a) + b) maxOff).view s l = .mem buf (st + (k + a) + b + s) l := rfl
      rw [hv2]
      refine ⟨⟨by omega, by omega⟩, ?_⟩
      rw [hdrop _ (by omega)]
      simp only [Rdr.content]
      rw [List.drop_take, List.drop_drop, List.take_take, List.take_take,
        show min (min l (S - (a + b + s))) (sz - (k + (a + b + s))) = l from by omega]
      congr 2; omega
  | file d =>
    simp only [Rdr.size] at h3 hbl hb64
    simp only [Rdr.content] at hrest' hdrop
    have hv : (Rdr.view (.file d) (k + a) n).view b maxOff = .window (.file d) (k + a + b) (d.length - (k + a + b)) := by
      simp only [Rdr.view]
      rw [Nat.mod_eq_of_lt (by omega)]
      simp only [Rdr.size, if_true]
      congr 1
      rw [show d.length + W64 - (k + a + b) = (d.length - (k + a + b)) + W64 from by omega, Nat.add_mod_right,
        Nat.mod_eq_of_lt (by omega)]
    rw [hv]
    have hwf : (Rdr.window (.file d) (k + a + b) (d.length - (k + a + b))).WF := ⟨by simp only [Rdr.WF]; omega, by simp only [Rdr.size]; omega⟩
    refine ⟨?_, ?_⟩
    · have e : (12 + (k + a + b)) % W64 = k + (a + b + 12) := by
        have := congrArg List.length hrest'
        rw [List.length_drop] at this
        simp only [List.length_append, List.length_cons] at this
        rw [Nat.mod_eq_of_lt (by omega)]; omega
      show readString (fun o => (Rdr.file d).read o 1) (Rdr.file d).size ((12 + (k + a + b)) % W64) = _
      rw [e, readString_file (.file d) (by simp only [Rdr.WF]; omega) _ (by omega)]
      congr 1
      simp only [Rdr.content]
      rw [hrest']
      exact takeWhile_prefix name rest' hz
    · intro s l hl hs
      have hv2 : (Rdr.window (.file d) (k + a + b) (d.length - (k + a + b))).view s l = .window (.file d) (k + a + b + s) l := by
        simp only [Rdr.view]
        rw [Nat.mod_eq_of_lt (by omega), if_neg hl]
      rw [hv2]
      refine ⟨⟨by simp only [Rdr.WF]; omega, by simp only [Rdr.size]; omega⟩, ?_⟩
      rw [hdrop _ (by omega)]
      simp only [Rdr.content]
      rw [List.take_take, show min l (S - (a + b + s)) = l from by omega]
      congr 2; omega

/-! ### One segment -/

/-- The note the iterator hands out is the encoded one. -/
def Represents (d : NoteDesc) (n : NoteVal) : Prop :=
  d.name = .ok n.name ∧ d.note.type = n.type ∧ d.data.WF ∧ d.data.content = n.desc

/-- Two lists of the same length, related element by element. -/
inductive Each {α β : Type} (R : α → β → Prop) : List α → List β → Prop
  | nil : Each R [] []
  | cons {a : α} {b : β} {as : List α} {bs : List β} (h : R a b) (hr : Each R as bs) : Each R (a :: as) (b :: bs)

theorem Each.append {α β : Type} {R : α → β → Prop} {as as' : List α} {bs bs' : List β} (h : Each R as bs) (h' : Each R as' bs') :
    Each R (as ++ as') (bs ++ bs') := by
  induction h with
  | nil => exact h'
  | cons hab _ ih => exact .cons hab ih

theorem roundup_len (n : Nat) : n + (pad4 n).length = roundup2 n 4 := by
  unfold pad4 roundup2; simp

theorem noteBytes_length (n : NoteVal) :
    (noteBytes n).length = 12 + roundup2 (n.name.length + 1) 4 + roundup2 n.desc.length 4 := by
  unfold noteBytes
  simp only [List.length_append, leBytes_length, List.length_cons, List.length_nil]
  have h1 := roundup_len (n.name.length + 1)
  have h2 := roundup_len n.desc.length
  omega

theorem nhdr_at (r : Rdr) (h : r.WF) (off : Nat) (n : NoteVal) (hf : NoteFits n) (rest : List Byte)
    (hd : r.content.drop off = noteBytes n ++ rest) :
    readNhdr r off = .ok ⟨n.name.length + 1, n.desc.length, n.type⟩ := by
  obtain ⟨f1, f2, f3, _⟩ := hf
  have hro := readObj_at r h off (leBytes 4 (n.name.length + 1) ++ (leBytes 4 n.desc.length ++ (leBytes 4 n.type ++ [])))
    ((n.name ++ [0#8] ++ pad4 (n.name.length + 1)) ++ (n.desc ++ pad4 n.desc.length) ++ rest)
    (by rw [hd]; unfold noteBytes; simp only [List.append_assoc, List.append_nil]) (by simp [leBytes])
  have hl : (leBytes 4 (n.name.length + 1) ++ (leBytes 4 n.desc.length ++ (leBytes 4 n.type ++ []))).length = 12 := by
    simp [leBytes_length]
  rw [hl] at hro
  unfold readNhdr
  rw [hro, Res.bind_ok]
  show Res.ok _ = _
  congr 1
  unfold Nhdr.decode
  have g0 := field_at [] (leBytes 4 n.desc.length ++ (leBytes 4 n.type ++ [])) 0 4 (n.name.length + 1) rfl f1
  have g1 := field_at (leBytes 4 (n.name.length + 1)) (leBytes 4 n.type ++ []) 4 4 n.desc.length (leBytes_length ..) f2
  have g2 := field_at (leBytes 4 (n.name.length + 1) ++ leBytes 4 n.desc.length) [] 8 4 n.type (by simp [leBytes_length]) f3
  rw [List.append_assoc] at g2
  rw [List.nil_append] at g0
  rw [g0, g1, g2]

/-- All notes from a place of a segment to its end. -/
theorem notesFrom_spec (io : Rdr) (h : io.WF) (h64 : io.size < 2 ^ 64 - 1) (a : Nat) (limit : Nat) (hfit : a + limit ≤ io.size)
    (ns : List NoteVal) : ∀ off fuel, ns ≠ [] → (∀ n ∈ ns, NoteFits n) → limit - off < fuel → off ≤ limit →
    ((io.content.drop a).take limit).drop off = (ns.map noteBytes).flatten →
    ∃ ds, notesFrom (io.view a limit) limit fuel off = .ok ds ∧ Each Represents ds ns := by
  have hlim : limit ≠ maxOff := by unfold maxOff; rw [W64_eq]; omega
  obtain ⟨vw, vc⟩ := view_content io h a limit hlim hfit
  obtain ⟨hil, _⟩ := content_length io h
  induction ns with
  | nil => intro _ _ h; exact absurd rfl h
  | cons n rest ih =>
    intro off fuel _ hf hfuel hoff hd
    obtain ⟨f, rfl⟩ : ∃ f, fuel = f + 1 := ⟨fuel - 1, by omega⟩
    have hnf := hf n (by simp)
    rw [List.map_cons, List.flatten_cons] at hd
    have hlen : limit - off = (noteBytes n).length + ((rest.map noteBytes).flatten).length := by
      have := congrArg List.length hd
      rw [List.length_drop, List.length_take, List.length_drop, hil, List.length_append] at this
      omega
    have hnl := noteBytes_length n
    -- the bytes of this note in the file
    have hfile : ∃ more, io.content.drop (a + off) = noteBytes n ++ more := by
      rw [List.drop_take, List.drop_drop] at hd
      refine ⟨(rest.map noteBytes).flatten ++ (io.content.drop (a + off)).drop (limit - off), ?_⟩
      conv => lhs; rw [← List.take_append_drop (limit - off) (io.content.drop (a + off))]
      rw [hd]; simp
    obtain ⟨more, hmore⟩ := hfile
    have hname : io.content.drop (a + off + 12) =
        n.name ++ 0#8 :: (pad4 (n.name.length + 1) ++ (n.desc ++ pad4 n.desc.length) ++ more) := by
      rw [← List.drop_drop, hmore]
      unfold noteBytes
      rw [show leBytes 4 (n.name.length + 1) ++ leBytes 4 n.desc.length ++ leBytes 4 n.type ++
          (n.name ++ [0#8] ++ pad4 (n.name.length + 1)) ++ (n.desc ++ pad4 n.desc.length) ++ more =
        (leBytes 4 (n.name.length + 1) ++ leBytes 4 n.desc.length ++ leBytes 4 n.type) ++
          (n.name ++ 0#8 :: (pad4 (n.name.length + 1) ++ (n.desc ++ pad4 n.desc.length) ++ more)) from by simp]
      rw [List.drop_left' (by simp [leBytes_length])]
    obtain ⟨p1, p2⟩ := positioned io h a limit off hlim hfit (by omega) n.name _ hnf.2.2.2 hname
    have hrep : Represents ⟨⟨n.name.length + 1, n.desc.length, n.type⟩, (io.view a limit).view off maxOff⟩ n := by
      have hr : n.desc.length ≤ roundup2 n.desc.length 4 := by unfold roundup2; omega
      obtain ⟨q1, q2⟩ := p2 (12 + roundup2 (n.name.length + 1) 4) n.desc.length
        (by unfold maxOff; rw [W64_eq]; have := hnf.2.1; omega) (by omega)
      refine ⟨p1, rfl, q1, ?_⟩
      show (Rdr.view _ _ _).content = _
      rw [q2, ← List.drop_drop, hmore]
      unfold noteBytes
      rw [show leBytes 4 (n.name.length + 1) ++ leBytes 4 n.desc.length ++ leBytes 4 n.type ++
          (n.name ++ [0#8] ++ pad4 (n.name.length + 1)) ++ (n.desc ++ pad4 n.desc.length) ++ more =
        (leBytes 4 (n.name.length + 1) ++ leBytes 4 n.desc.length ++ leBytes 4 n.type ++
          (n.name ++ [0#8] ++ pad4 (n.name.length + 1))) ++ (n.desc ++ (pad4 n.desc.length ++ more)) from by simp]
      rw [List.drop_left' (by
        simp only [List.length_append, leBytes_length, List.length_cons, List.length_nil]
        have := roundup_len (n.name.length + 1)
        omega), List.take_left]
    have hhdr := nhdr_at (io.view a limit) vw off n hnf ((rest.map noteBytes).flatten) (by rw [vc]; exact hd)
    have hns : noteSize ⟨n.name.length + 1, n.desc.length, n.type⟩ = (noteBytes n).length := by
      rw [hnl]; rfl
    have hlimlt : limit < W64 := by rw [W64_eq]; omega
    rw [notesFrom, hhdr, Res.bind_ok]
    simp only [hns]
    rw [Nat.mod_eq_of_lt (by omega)]
    by_cases hlast : rest = []
    · subst hlast
      simp only [List.map_nil, List.flatten_nil, List.length_nil, Nat.add_zero] at hlen
      rw [if_pos (by omega)]
      exact ⟨_, rfl, .cons hrep .nil⟩
    · have hpos : 0 < ((rest.map noteBytes).flatten).length := by
        obtain ⟨m, ms, rfl⟩ := List.exists_cons_of_ne_nil hlast
        rw [List.map_cons, List.flatten_cons, List.length_append, noteBytes_length]
        omega
      rw [if_neg (by omega)]
      obtain ⟨ds, hds, hea⟩ := ih (off + (noteBytes n).length) f hlast (fun m hm => hf m (by simp [hm])) (by omega) (by omega)
        (by rw [← List.drop_drop, hd, List.drop_left])
      rw [hds, Res.bind_ok]
      exact ⟨_, rfl, .cons hrep hea⟩

/-! ### The whole object -/

/-- C32. Iterating the notes of an object yields exactly the notes of its note segments, in order, each with its name, type and
descriptor - for any number of segments and notes, and any lengths of names and descriptors, read from a file, from memory
or through any stack of windows. Partial: a note segment must contain at least one note, and every name a terminating NUL. -/
theorem C32_notes_partial (io : Rdr) (h : io.WF) (h64 : io.size < 2 ^ 64 - 1) (segs : List (Phdr × List NoteVal))
    (hs : ∀ s ∈ segs, s.2 ≠ [] ∧ SegmentHolds io.content s.1 s.2) :
    ∃ ds, segmentNotes io (segs.map (·.1)) = .ok ds ∧ Each Represents ds (segs.map (·.2)).flatten := by
  induction segs with
  | nil => exact ⟨[], rfl, .nil⟩
  | cons s rest ih =>
    obtain ⟨ph, ns⟩ := s
    obtain ⟨hne, hlen, hb, hf⟩ := hs (ph, ns) (by simp)
    simp only at hne hlen hb hf
    obtain ⟨more, hm1, hm2⟩ := ih (fun s hs' => hs s (by simp [hs']))
    have hpos : 0 < ph.filesz := by
      rw [hlen]
      obtain ⟨m, ms, rfl⟩ := List.exists_cons_of_ne_nil hne
      rw [List.map_cons, List.flatten_cons, List.length_append, noteBytes_length]
      omega
    have hfit : ph.offset + ph.filesz ≤ io.size := by
      have := congrArg List.length hb
      rw [List.length_take, List.length_drop, ← hlen, (content_length io h).1] at this
      omega
    obtain ⟨ds, hd1, hd2⟩ := notesFrom_spec io h h64 ph.offset ph.filesz hfit ns 0 (ph.filesz + 1) hne hf (by omega) (by omega)
      (by rw [List.drop_zero]; exact hb)
    refine ⟨ds ++ more, ?_, ?_⟩
    · rw [List.map_cons, segmentNotes, hd1, Res.bind_ok, hm1, Res.bind_ok]; rfl
    · rw [List.map_cons, List.flatten_cons]
      exact hd2.append hm2

/-- The descriptor of the first GNU build-id note (name "GNU", type 3). -/
def firstBuildID (ns : List NoteVal) : List Byte :=
  match ns.find? (fun n => decide (n.name = [0x47#8, 0x4e#8, 0x55#8]) && decide (n.type = 3)) with
  | some n => n.desc
  | none => []

theorem findBuildID_spec (ds : List NoteDesc) (ns : List NoteVal) (h : Each Represents ds ns) :
    (do match ← findBuildID ds with
        | some id => return id
        | none => return [] : Res (List Byte)) = .ok (firstBuildID ns) := by
  induction h with
  | nil => rfl
  | cons hr _ ih =>
    rename_i d n ds ns _
    obtain ⟨h1, h2, h3, h4⟩ := hr
    rw [findBuildID, h1, Res.bind_ok]
    unfold firstBuildID
    rw [List.find?_cons]
    by_cases hc : n.name = [0x47#8, 0x4e#8, 0x55#8] ∧ d.note.type = 3
    · rw [if_pos hc]
      have hp : (decide (n.name = [0x47#8, 0x4e#8, 0x55#8]) && decide (n.type = 3)) = true := by rw [← h2]; simp [hc]
      rw [hp]
      simp only
      have hl := (content_length _ h3).1
      rw [h4] at hl
      have hro : d.data.readObj 0 d.data.size = .ok n.desc := by
        by_cases h0 : n.desc = []
        · rw [← hl, h0]; rfl
        · have := readObj_at d.data h3 0 n.desc [] (by rw [List.drop_zero, h4, List.append_nil]) h0
          rw [← hl]; exact this
      rw [hro]
      rfl
    · rw [if_neg hc]
      have hp : (decide (n.name = [0x47#8, 0x4e#8, 0x55#8]) && decide (n.type = 3)) = false := by
        rw [← h2]; simp; intro h; intro h'; exact hc ⟨h, h'⟩
      rw [hp]
      exact ih

/-- C32. The build id of an object is the descriptor of its first note named "GNU" of type 3, and empty if it has none. -/
theorem C32_build_id (io : Rdr) (h : io.WF) (h64 : io.size < 2 ^ 64 - 1) (segs : List (Phdr × List NoteVal))
    (hs : ∀ s ∈ segs, s.2 ≠ [] ∧ SegmentHolds io.content s.1 s.2) :
    getBuildID io (segs.map (·.1)) = .ok (firstBuildID (segs.map (·.2)).flatten) := by
  obtain ⟨ds, h1, h2⟩ := C32_notes_partial io h h64 segs hs
  unfold getBuildID
  rw [h1, Res.bind_ok]
  exact findBuildID_spec ds _ h2

/-- Two notes in one segment: "GNU" type 1 with five bytes, "GNU" type 3 with the id 1, 2, 3. -/
def C32_notes : List NoteVal :=
  [⟨[0x47#8, 0x4e#8, 0x55#8], 1, [9#8, 9#8, 9#8, 9#8, 9#8]⟩, ⟨[0x47#8, 0x4e#8, 0x55#8], 3, [1#8, 2#8, 3#8]⟩]
def C32_file : Rdr := .file ([7#8, 7#8] ++ (C32_notes.map noteBytes).flatten ++ [5#8])

example : C32_file.WF ∧ C32_file.size < 2 ^ 64 - 1 ∧
    ∀ s ∈ [((⟨4, 4, 2, 0, 0, 44, 44, 4⟩ : Phdr), C32_notes)], s.2 ≠ [] ∧ SegmentHolds C32_file.content s.1 s.2 := by
  refine ⟨by simp only [C32_file, Rdr.WF]; decide +kernel, by decide +kernel, ?_⟩
  intro s hs
  simp only [List.mem_cons, List.not_mem_nil, or_false] at hs
  subst hs
  exact ⟨by decide, by decide +kernel, by decide +kernel, by simp [C32_notes, NoteFits]⟩

theorem C32_example : getBuildID C32_file [⟨4, 4, 2, 0, 0, 44, 44, 4⟩] = .ok [1#8, 2#8, 3#8] := by decide +kernel

/-- C32 fails for an empty note segment: the first header is read without looking at the size, and that throws - so one empty
segment hides the notes of all others. -/
theorem C32_not_empty_segment : ∃ (io : Rdr) (p q : Phdr) (n : NoteVal), io.WF ∧ SegmentHolds io.content p [n] ∧
    SegmentHolds io.content q [] ∧ segmentNotes io [p, q] = .exc := by
  refine ⟨.file (noteBytes ⟨[0x47#8], 3, [1#8]⟩), ⟨4, 4, 0, 0, 0, 20, 20, 4⟩, ⟨4, 4, 20, 0x100, 0, 0, 0, 4⟩, ⟨[0x47#8], 3, [1#8]⟩,
    by simp only [Rdr.WF]; decide +kernel, ⟨by decide +kernel, by decide +kernel, by simp [NoteFits]⟩,
    ⟨by decide +kernel, by decide +kernel, by simp⟩, rfl⟩

/-- C32 fails for a note without a name (`n_namesz` = 0): `name()` returns the beginning of the descriptor. Here a note with an
empty name and the descriptor "GNU\\0" passes for one named "GNU". -/
theorem C32_not_empty_name : ∃ (io : Rdr) (ph : Phdr) (d : NoteDesc),
    io = .file (leBytes 4 0 ++ leBytes 4 4 ++ leBytes 4 3 ++ [0x47#8, 0x4e#8, 0x55#8, 0#8]) ∧
    segmentNotes io [ph] = .ok [d] ∧ d.note.namesz = 0 ∧ d.name = .ok [0x47#8, 0x4e#8, 0x55#8] := by
  refine ⟨_, ⟨4, 4, 0, 0, 0, 16, 16, 4⟩, ⟨⟨0, 4, 3⟩, (Rdr.view (Rdr.view (.file (leBytes 4 0 ++ leBytes 4 4 ++ leBytes 4 3 ++
    [0x47#8, 0x4e#8, 0x55#8, 0#8])) 0 16) 0 maxOff)⟩, rfl, rfl, rfl, by decide +kernel⟩

end Pstack.Props
