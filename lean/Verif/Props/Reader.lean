import Verif.Proof.Cache
import Verif.Proof.Window
import Verif.Proof.Leb
/-
Property theorems C01 - C07: the reader stack.
-/
namespace Pstack.Props
open Pstack.Reader Pstack.Spec

/-! ## C01 -/

/-- C01. Whatever was done with the caching reader before (reads, string reads, flushes, in any order), a read returns
exactly the bytes the memory holds from `off` on, at most `count`, up to the first hole. Only a read of 256 bytes or
more can fail, and only if the source itself fails there - where there is nothing to read. -/
theorem C01_cache_transparent (m : Mem) (src : Nat → Nat → Option (List Byte)) (hs : Serves src m) (hb : BlockPrefix m)
    (hist : List (Source × Nat × CacheOp)) (hsrc : ∀ x ∈ hist, x.1 = src) (off count : Nat) :
    ((Cache.init.run hist).read src off count).2 = .ok (slice m off count) ∨
    (((Cache.init.run hist).read src off count).2 = .exc ∧ 256 ≤ count ∧ src off count = none ∧ slice m off count = []) := by
  have hc := run_agree hs hb hist hsrc Cache.init (by intro p hp; simp [Cache.init] at hp)
  obtain ⟨_, h, _⟩ := read_spec hs hb hc off count
  rcases h with h | ⟨h1, h2, h3⟩
  · exact Or.inl h
  · refine Or.inr ⟨h1, h2, h3, ?_⟩
    have := hs off count
    rwa [h3] at this

/-- C01 for a file of bytes: every read is the slice of the file. -/
theorem C01_cache_transparent_file (data : List Byte) (hist : List (Source × Nat × CacheOp))
    (hsrc : ∀ x ∈ hist, x.1 = fun off count => some ((data.drop off).take count)) (off count : Nat) :
    ((Cache.init.run hist).read (fun off count => some ((data.drop off).take count)) off count).2
      = .ok ((data.drop off).take count) := by
  have hs : Serves (fun off count => some ((data.drop off).take count)) (ofList data) := by
    intro o n; simp [slice_ofList]
  rcases C01_cache_transparent (ofList data) _ hs (ofList_blockPrefix data) hist hsrc off count with h | ⟨_, _, h, _⟩
  · rw [h, slice_ofList]
  · simp at h

-- non-vacuity: a 300-byte file, after a history of a read, a flush and a string read
example : ∃ (hist : List (Source × Nat × CacheOp)), hist.length = 3 ∧
    ∀ x ∈ hist, x.1 = fun off count => some (((List.replicate 300 7#8).drop off).take count) := by
  let src : Source := fun off count => some (((List.replicate 300 7#8).drop off).take count)
  refine ⟨[(src, 300, .read 250 20), (src, 300, .flush), (src, 300, .str 3)], rfl, ?_⟩
  intro x hx; simp only [List.mem_cons, List.not_mem_nil, or_false] at hx
  rcases hx with rfl | rfl | rfl <;> rfl

/-- Why C01 assumes that holes are aligned to 256-byte blocks: otherwise a byte the source can deliver is lost, because
the cache asks for the whole block from its beginning. (Process mappings are aligned to 4096.) -/
theorem C01_needs_aligned_holes : ∃ (m : Mem) (src : Nat → Nat → Option (List Byte)), Serves src m ∧
    (Cache.init.read src 10 1).2 = .ok [] ∧ slice m 10 1 = [5#8] := by
  refine ⟨fun i => if i = 10 then some 5#8 else none,
    fun off count => some (slice (fun i => if i = 10 then some 5#8 else none) off count), ?_, ?_, ?_⟩
  · intro o n; rfl
  · have h0 : slice (fun i => if i = 10 then some 5#8 else none) 0 256 = [] := slice_none _ 0 256 (by decide)
    simp [Cache.read, PAGESIZE, Cache.readLoop, Cache.getPage, Cache.init, MAXPAGES, h0]
  · rfl

/-! ## C02 -/

/-- C02. After any history of reads, string reads and flushes, over sources that may change and fail at any time, the
cache holds at most 16 pages, with pairwise distinct offsets. -/
theorem C02_cache_bounded (hist : List (Source × Nat × CacheOp)) :
    (Cache.init.run hist).pages.length ≤ 16 ∧ ((Cache.init.run hist).pages.map (·.offset)).Nodup :=
  run_lift PagesOK ⟨by decide, by simp⟩ getPage_ok hist Cache.init ⟨by decide, by simp [Cache.init]⟩

/-- The cache after a sequence of page accesses. -/
def accesses (src : Source) (c : Cache) (ts : List Nat) : Cache := ts.foldl (fun c t => (c.getPage src t).1) c

/-- C02. After any sequence of page accesses none of which the source fails, the pages held are the 16 most recently
used distinct pages, most recent first. -/
theorem C02_cache_recency (src : Source) (ts : List Nat) (hok : ∀ t ∈ ts, src t 256 ≠ none) :
    (accesses src Cache.init ts).pages.map (·.offset) = (ts.reverse.eraseDups).take 16 := by
  have key : ∀ (ts : List Nat) (c : Cache) (h : List Nat), (∀ t ∈ ts, src t 256 ≠ none) →
      c.pages.map (·.offset) = (h.eraseDups).take MAXPAGES →
      (accesses src c ts).pages.map (·.offset) = ((ts.reverse ++ h).eraseDups).take MAXPAGES := by
    intro ts
    induction ts with
    | nil => intro c h _ hc; simpa [accesses] using hc
    | cons t ts ih =>
      intro c h hok hc
      have := ih (c.getPage src t).1 (t :: h) (fun x hx => hok x (List.mem_cons_of_mem _ hx))
        (getPage_recency src c h t (hok t List.mem_cons_self) hc)
      simpa [accesses, List.append_assoc] using this
  have := key ts Cache.init [] hok (by simp [Cache.init])
  simpa [MAXPAGES] using this

/-- C02. A page among the 16 most recently used distinct ones is served without the source: any other source gives the
same result and the same next state. -/
theorem C02_cache_hit (src src' : Source) (ts : List Nat) (hok : ∀ t ∈ ts, src t 256 ≠ none) (t : Nat)
    (ht : t ∈ (ts.reverse.eraseDups).take 16) :
    (accesses src Cache.init ts).getPage src t = (accesses src Cache.init ts).getPage src' t ∧
    ∃ p, ((accesses src Cache.init ts).getPage src t).2 = some p ∧ p.offset = t := by
  rw [← C02_cache_recency src ts hok] at ht
  generalize accesses src Cache.init ts = c at *
  obtain ⟨p, hp, hpt⟩ := List.mem_map.1 ht
  unfold Cache.getPage
  cases hf : c.pages.find? (fun p => p.offset == t) with
  | none =>
    simp only [List.find?_eq_none, beq_iff_eq] at hf
    exact absurd hpt (hf p hp)
  | some q => exact ⟨rfl, q, rfl, by simpa using List.find?_some hf⟩

-- non-vacuity: 18 accesses to 17 distinct pages; page 1 was pushed out
example : ((accesses (fun _ _ => some []) Cache.init
    [1, 2, 3, 4, 5, 6, 7, 8, 9, 10, 11, 12, 13, 14, 15, 16, 2, 17]).pages.map (·.offset))
    = [17, 2, 16, 15, 14, 13, 12, 11, 10, 9, 8, 7, 6, 5, 4, 3] := by decide

/-! ## C03 -/

/-- C03, reads. Whatever happened before (with whatever sources), after a flush every read returns what the source
holds now. -/
theorem C03_flush_fresh_partial (before : List (Source × Nat × CacheOp)) (m : Mem) (src : Nat → Nat → Option (List Byte))
    (hs : Serves src m) (hb : BlockPrefix m)
    (after : List (Source × Nat × CacheOp)) (hsrc : ∀ x ∈ after, x.1 = src) (off count : Nat) :
    let c := ((Cache.init.run before).flush).run after
    ((c.read src off count).2 = .ok (slice m off count) ∨
      ((c.read src off count).2 = .exc ∧ 256 ≤ count ∧ slice m off count = [])) ∧
    -- and so does a string read at any offset not string-read before
    ((∀ x ∈ before ++ after, x.2.2 ≠ .str off) → off ≠ 0 → ∀ size,
      (c.readString src size off).2 = cstring m size off) := by
  intro c
  have hc : PagesAgree m c := run_agree hs hb after hsrc _ (by intro p hp; simp [Cache.flush] at hp)
  refine ⟨?_, ?_⟩
  · obtain ⟨_, h, _⟩ := read_spec hs hb hc off count
    rcases h with h | ⟨h1, h2, h3⟩
    · exact Or.inl h
    · refine Or.inr ⟨h1, h2, ?_⟩
      have := hs off count
      rwa [h3] at this
  · intro hn h0 size
    have h1 : c.strings.lookup off = none := by
      rw [run_strings off after _ (fun x hx => hn x (List.mem_append_right _ hx))]
      show (Cache.init.run before).strings.lookup off = none
      rw [run_strings off before _ (fun x hx => hn x (List.mem_append_left _ hx))]
      rfl
    rw [(readString_spec hs hb size c off hc).2.1 h1, if_neg h0]

/-- C03 fails for strings: a string read before the flush is returned after it, although the source now holds another
string there. (What is missing from `C03_flush_fresh_partial`: string reads at offsets that were string-read before.) -/
theorem C03_not_flush_fresh_strings : ∃ (m₁ m₂ : Mem) (src₁ src₂ : Nat → Nat → Option (List Byte)) (off size : Nat),
    Serves src₁ m₁ ∧ Serves src₂ m₂ ∧ off ≠ 0 ∧
    cstring m₂ size off = [0x62#8] ∧
    (((Cache.init.step src₁ size (.str off)).flush).readString src₂ size off).2 = [0x61#8] := by
  refine ⟨ofList [0#8, 0x61#8, 0#8], ofList [0#8, 0x62#8, 0#8],
    fun o n => some (([0#8, 0x61#8, 0#8].drop o).take n), fun o n => some (([0#8, 0x62#8, 0#8].drop o).take n), 1, 3,
    ?_, ?_, by decide, by decide, ?_⟩
  · intro o n; simp [slice_ofList]
  · intro o n; simp [slice_ofList]
  · simp [Cache.step, Cache.readString, Cache.init, Cache.flush, Cache.readStringLoop, Cache.read, Cache.readLoop,
      Cache.getPage, PAGESIZE, MAXPAGES]

/-! ## C04 -/

/-- C04. A read of a well-formed reader (memory, file, or any tower of windows on one) at an offset inside it returns
exactly its bytes from `off`, at most `count`, none beyond its end. -/
theorem C04_window_read_partial (r : Rdr) (h : r.WF) (off count : Nat) (hoff : off ≤ r.size) (hc : off + count < 2 ^ 64) :
    r.read off count = .ok ((r.content.drop off).take count) :=
  read_content r h off count hoff (by rw [W64_eq]; exact hc)

/-- C04. Spelled out for one window on any well-formed reader: the bytes are those of the underlying reader at
`base + off`, cut at the window's end. -/
theorem C04_window_slice (up : Rdr) (base len off count : Nat) (h : (Rdr.window up base len).WF) (hoff : off ≤ len)
    (hc : off + count < 2 ^ 64) :
    (Rdr.window up base len).read off count = .ok ((up.content.drop (base + off)).take (min count (len - off))) := by
  rw [C04_window_read_partial _ h off count hoff hc]
  simp only [Rdr.content, List.drop_take, List.take_take, List.drop_drop]

/-- C04. An offset beyond a window (or beyond a memory reader) raises an exception. -/
theorem C04_beyond_window (up : Rdr) (base len off count : Nat) (h : len < off) :
    (Rdr.window up base len).read off count = .exc := by
  simp [Rdr.read, h]

theorem C04_beyond_memory (buf : List Byte) (start size off count : Nat) (h : size < off) :
    (Rdr.mem buf start size).read off count = .exc := by
  simp [Rdr.read, h]

/-- C04. A typed object read is all or nothing: the `n` bytes at `off` when the reader has them, an exception when the
reader ends before the last of them. -/
theorem C04_object_read (r : Rdr) (h : r.WF) (off n : Nat) (hoff : off ≤ r.size) (hc : off + n < 2 ^ 64) :
    (off + n ≤ r.size → r.readObj off n = .ok ((r.content.drop off).take n)) ∧
    (r.size < off + n → r.readObj off n = .exc) := by
  have hl := content_length r h
  unfold Rdr.readObj
  rw [C04_window_read_partial r h off n hoff hc]
  constructor
  · intro hb
    by_cases hn : n = 0
    · simp [hn]
    · rw [if_neg hn, Res.bind_ok, if_neg]
      simp; omega
  · intro hb
    rw [if_neg (by omega), Res.bind_ok, if_pos]
    simp; omega

/-- C04. A view that stays inside its reader denotes that part of it - for windows on windows, by adding the bases. -/
theorem C04_view_compose_partial (r : Rdr) (h : r.WF) (start length : Nat) (hl : length ≠ maxOff)
    (hb : start + length ≤ r.size) :
    (r.view start length).WF ∧ (r.view start length).content = (r.content.drop start).take length :=
  view_content r h start length hl hb

-- non-vacuity: a window [2,6) on a window [1,9) on a 10-byte file
example : (Rdr.window (Rdr.window (.file (List.replicate 10 1#8)) 1 8) 2 4).WF := by simp [Rdr.WF, Rdr.size, W64]

/-- C04 fails for counts so large that `off + count` wraps: the clamp is skipped and bytes outside the window are
returned. -/
theorem C04_not_window_read : ∃ (r : Rdr) (off count : Nat), r.WF ∧ off ≤ r.size ∧ count < 2 ^ 64 ∧
    r.read off count ≠ .ok ((r.content.drop off).take count) := by
  refine ⟨.window (.file [1#8, 2#8, 3#8, 4#8]) 0 2, 1, 2 ^ 64 - 1, by simp [Rdr.WF, Rdr.size, W64], by decide, by decide, ?_⟩
  simp [Rdr.read, Rdr.content, W64]

/-- C04 fails for views of a window that reach past its end: they expose bytes outside the window. -/
theorem C04_not_view_clamped : ∃ (r : Rdr) (start length : Nat), r.WF ∧ length ≠ maxOff ∧
    (r.view start length).read 0 length ≠ .ok ((r.content.drop start).take length) := by
  refine ⟨.window (.file [1#8, 2#8, 3#8, 4#8]) 0 2, 1, 2, by simp [Rdr.WF, Rdr.size, W64], by decide, ?_⟩
  simp [Rdr.view, Rdr.read, Rdr.content, W64, maxOff]

/-- C04 fails for a view of a memory reader with the default length: it claims 2^64-1 bytes and reading it leaves the
block - undefined behaviour. -/
theorem C04_not_default_view_of_memory : ∃ (r : Rdr), r.WF ∧ (r.view 1 maxOff).read 0 4 = .ub := by
  refine ⟨.mem [1#8, 2#8, 3#8] 0 3, by simp [Rdr.WF, W64], ?_⟩
  simp [Rdr.view, Rdr.read, maxOff, W64]

/-! ## C05 -/

/-- C05. Iterating an array view yields the elements `0 .. n-1`, each the `sz` bytes at `base + i*sz`, where `n` is the
number of whole elements; nothing else, whatever the size `K` of the internal window. -/
theorem C05_array_iterates_all (rd : Nat → Nat → Res (List Byte)) (data : List Byte) (hrd : ServesList rd data)
    (base sz K : Nat) (hsz : 0 < sz) (hK : 0 < K) (hlen : data.length < 2 ^ 64 - 1) (hb : base ≤ data.length)
    (hm : data.length % sz = 0) :
    readerArray rd data.length base sz K =
      .ok ((List.range ((data.length - base) / sz)).map (fun i => (data.drop (base + i * sz)).take sz)) := by
  unfold readerArray
  rw [if_neg (by simp [hm])]
  have e : (data.length + W64 - base) % W64 = data.length - base := by
    rw [W64_eq]
    omega
  rw [e, iterate_spec rd data hrd base sz K hsz hK _ ⟨0, []⟩ 0 (by intro i hi; simp at hi)]
  · rw [List.range_eq_range']; rfl
  · have := Nat.div_mul_le_self (data.length - base) sz
    simp only [Nat.zero_add]; omega

/-- C05. Random access: after any history of accesses, in or out of range, element `idx` is the `sz` bytes at
`base + idx*sz`, or an exception if they are not all there. -/
theorem C05_array_random_access (rd : Nat → Nat → Res (List Byte)) (data : List Byte) (hrd : ServesList rd data)
    (base sz K : Nat) (hsz : 0 < sz) (hK : 0 < K) (hist : List Nat) (idx : Nat) :
    ((hist.foldl (fun (w : ArrWin) i => (w.getitem rd base sz K i).1) ⟨0, []⟩).getitem rd base sz K idx).2 =
      if base + (idx + 1) * sz ≤ data.length then .ok ((data.drop (base + idx * sz)).take sz) else .exc := by
  have key : ∀ (hist : List Nat) (w : ArrWin), WinOK data base sz w →
      WinOK data base sz (hist.foldl (fun (w : ArrWin) i => (w.getitem rd base sz K i).1) w) := by
    intro hist
    induction hist with
    | nil => intro w hw; exact hw
    | cons i hist ih => intro w hw; exact ih _ (getitem_spec rd data hrd base sz K hsz hK w hw i).1
  exact (getitem_spec rd data hrd base sz K hsz hK _ (key hist ⟨0, []⟩ (by intro i hi; simp at hi)) idx).2

-- non-vacuity: a file serves its bytes
example : ServesList (Rdr.file [1#8, 2#8, 3#8, 4#8]).read [1#8, 2#8, 3#8, 4#8] := by
  refine ⟨fun off count _ => rfl, fun off count h => Or.inr ?_⟩
  simp only [Rdr.read]
  rw [List.drop_eq_nil_of_le (by omega)]; simp

/-! ## C06 -/

/-- The character loop, over any reader. -/
theorem readString_file (r : Rdr) (h : r.WF) (off : Nat) (h0 : off ≠ 0) :
    readString (fun o => r.read o 1) r.size off = .ok ((r.content.drop off).takeWhile (· ≠ 0#8)) := by
  obtain ⟨hl, hw⟩ := content_length r h
  unfold readString
  rw [if_neg h0]
  by_cases hoff : off ≤ r.size
  · rw [readStringLoop_content _ (ofList r.content) _ off]
    · rw [slice_ofList, List.take_of_length_le (by simp [hl])]
    · intro o h1 h2
      rw [slice_ofList]
      exact read_content r h o 1 (by omega) (by omega)
  · have e : r.size - off = 0 := by omega
    rw [e, List.drop_eq_nil_of_le (by omega)]; rfl

/-- Position `off` of the reader is the very first byte of a file. -/
def AtFileStart : Rdr → Nat → Prop
  | .file _, off => off = 0
  | .window up o _, off => AtFileStart up (off + o)
  | _, _ => False

/-- C06. On every reader - a file, a block of memory, windows of windows of either - reading a string that is terminated within the
reader's data gives exactly its characters, whatever else the data holds. (All but the first byte of a file, see below.) -/
theorem C06_string_to_nul_partial (r : Rdr) (h : r.WF) (off : Nat) (h0 : ¬ AtFileStart r off) (s rest : List Byte)
    (hs : ∀ b ∈ s, b ≠ 0#8) (hd : r.content.drop off = s ++ 0#8 :: rest) : r.readString off = .ok s := by
  have htw : ∀ q, (s ++ 0#8 :: q).takeWhile (fun b => decide (b ≠ 0#8)) = s := by
    intro q
    rw [List.takeWhile_append_of_pos (fun a ha => by simpa using hs a ha)]
    simp
  have hex : ∀ (l : List Byte) (o n : Nat), (l.take n).drop o = s ++ 0#8 :: rest → ∃ more, l.drop o = s ++ 0#8 :: more := by
    intro l o n hl
    rw [List.drop_take] at hl
    refine ⟨rest ++ (l.drop o).drop (n - o), ?_⟩
    conv => lhs; rw [← List.take_append_drop (n - o) (l.drop o)]
    rw [hl]; simp
  induction r generalizing off rest with
  | null => exact h.elim
  | file d =>
    have := readString_file (.file d) h off h0
    simp only [Rdr.readString]
    rw [show d.length = (Rdr.file d).size from rfl, this]
    simp only [Rdr.content] at hd ⊢
    rw [hd, htw]
  | mem buf st sz =>
    simp only [Rdr.content] at hd
    obtain ⟨more, hm⟩ := hex _ _ _ hd
    rw [List.drop_drop] at hm
    simp only [Rdr.readString, memString]
    rw [hm, if_pos (by simp), htw]
  | window up o l ih =>
    obtain ⟨h1, h2⟩ := h
    simp only [Rdr.content] at hd
    have hlen := congrArg List.length hd
    rw [List.length_drop, List.length_take, List.length_drop, (content_length up h1).1] at hlen
    simp only [List.length_append, List.length_cons] at hlen
    have h64 := (content_length up h1).2
    obtain ⟨more, hm⟩ := hex _ _ _ hd
    rw [List.drop_drop] at hm
    simp only [Rdr.readString]
    rw [Nat.mod_eq_of_lt (by omega)]
    refine ih h1 (off + o) h0 more (by rw [Nat.add_comm]; exact hm) ?_
    intro l' o' n' hl'
    rw [List.drop_take] at hl'
    refine ⟨more ++ (l'.drop o').drop (n' - o'), ?_⟩
    conv => lhs; rw [← List.take_append_drop (n' - o') (l'.drop o')]
    rw [hl']; simp

/-- C06. In a file, an unterminated string ends with the file. -/
theorem C06_string_to_end (d : List Byte) (hd : d.length < 2 ^ 64) (off : Nat) (h0 : off ≠ 0) :
    (Rdr.file d).readString off = .ok ((d.drop off).takeWhile (· ≠ 0#8)) := by
  exact readString_file (.file d) (by simp only [Rdr.WF]; rw [W64_eq]; exact hd) off h0

/-- C06. The start of a file reads as "(null)". -/
theorem C06_string_at_zero (d : List Byte) :
    (Rdr.file d).readString 0 = .ok ("(null)".toList.map (fun c => BitVec.ofNat 8 c.toNat)) := by
  simp [Rdr.readString, readString, nullString]

-- non-vacuity: a window on a window
example : (Rdr.window (.window (.file [1#8, 2#8, 3#8, 0#8, 4#8]) 0 5) 1 4).WF ∧
    ¬ AtFileStart (.window (.window (.file [1#8, 2#8, 3#8, 0#8, 4#8]) 0 5) 1 4) 0 ∧
    (Rdr.window (.window (.file [1#8, 2#8, 3#8, 0#8, 4#8]) 0 5) 1 4).content.drop 0 = [2#8, 3#8] ++ 0#8 :: [4#8] := by
  refine ⟨⟨⟨by simp [Rdr.WF, W64], by simp [Rdr.size]⟩, by simp [Rdr.size]⟩, by simp [AtFileStart], rfl⟩

/-- C06 fails on a window: a string that is not terminated within it continues with bytes outside the window. -/
theorem C06_not_cut_at_window : ∃ r : Rdr, r.WF ∧ r.content = [1#8, 2#8, 3#8] ∧ r.readString 1 = .ok [2#8, 3#8, 4#8] := by
  refine ⟨.window (.file [9#8, 1#8, 2#8, 3#8, 4#8, 0#8]) 1 3, ⟨by simp [Rdr.WF, W64], by simp [Rdr.size]⟩, rfl, ?_⟩
  decide +kernel

/-- C06 fails in memory: an unterminated string runs past the end of the data, without meaning if nothing follows. -/
theorem C06_not_cut_in_memory : (Rdr.mem [1#8, 2#8] 0 2).WF ∧ (Rdr.mem [1#8, 2#8] 0 2).readString 1 = .ub := by
  refine ⟨⟨by decide, by decide⟩, by decide +kernel⟩

/-! ## C07 -/

/-- C07. Unsigned: the encoding of any 64-bit value, followed by anything, decodes to that value and its length. -/
theorem C07_uleb_roundtrip (v : BitVec 64) (rest : List Byte) :
    readULEB128 (encodeU v.toNat ++ rest) = .ok (v, (encodeU v.toNat).length) := by
  have hlen : (encodeU v.toNat).length ≤ 10 := encodeU_length 10 _ (Nat.lt_of_lt_of_le v.isLt (by decide)) (by decide)
  have := leb_unsigned .exc (encodeU v.toNat) 0 0#64 rest (encodeU_terminated _) (by omega) (by decide)
  rw [encodeU_value] at this
  simpa [readULEB128] using this

/-- C07. Signed: the encoding of any 64-bit signed value, followed by anything, decodes to it and its length. -/
theorem C07_sleb_roundtrip (v : BitVec 64) (rest : List Byte) :
    readSLEB128 (encodeS v.toInt ++ rest) = .ok (v, (encodeS v.toInt).length) := by
  have hlen : (encodeS v.toInt).length ≤ 10 := by
    have h1 := BitVec.le_toInt v
    have h2 := BitVec.toInt_lt (x := v)
    apply encodeS_length 9
    · have : (64 * 128 ^ 9 : Int) ≥ 2 ^ 63 := by decide
      simp at h1; omega
    · have : (64 * 128 ^ 9 : Int) ≥ 2 ^ 63 := by decide
      simp at h2; omega
  have := leb_signed .exc (encodeS v.toInt) 0 0#64 rest (encodeS_terminated _) (by omega) (by decide)
  rw [encodeS_value] at this
  simpa [readSLEB128] using this

/-- C07. Any encoding of at most ten bytes, padded or not, decodes to the number its 7-bit groups denote, modulo 2^64. -/
theorem C07_uleb_any (bs rest : List Byte) (ht : Terminated bs) (hl : bs.length ≤ 10) :
    readULEB128 (bs ++ rest) = .ok (BitVec.ofNat 64 (groupValue bs), bs.length) := by
  have := leb_unsigned .exc bs 0 0#64 rest ht (by omega) (by decide)
  simpa [readULEB128] using this

theorem C07_sleb_any (bs rest : List Byte) (ht : Terminated bs) (hl : bs.length ≤ 10) :
    readSLEB128 (bs ++ rest) = .ok (BitVec.ofInt 64 (groupValueS bs), bs.length) := by
  have := leb_signed .exc bs 0 0#64 rest ht (by omega) (by decide)
  simpa [readSLEB128] using this

/-- C07 through reader objects: memory, file, or windows, at any offset, whether decoded from a raw pointer or through
the buffered byte array. -/
theorem C07_reader_uleb (r : Rdr) (h : r.WF) (hK : r.size + 1024 < 2 ^ 64) (off : Nat) (v : BitVec 64) (rest : List Byte)
    (hc : r.content.drop off = encodeU v.toNat ++ rest) :
    r.readLEB false off = .ok (v, (encodeU v.toNat).length) := by
  rw [readLEB_eq false r h (by rw [W64_eq]; exact hK) off _ rest hc (encodeU_terminated _)]
  exact C07_uleb_roundtrip v rest

theorem C07_reader_sleb (r : Rdr) (h : r.WF) (hK : r.size + 1024 < 2 ^ 64) (off : Nat) (v : BitVec 64) (rest : List Byte)
    (hc : r.content.drop off = encodeS v.toInt ++ rest) :
    r.readLEB true off = .ok (v, (encodeS v.toInt).length) := by
  rw [readLEB_eq true r h (by rw [W64_eq]; exact hK) off _ rest hc (encodeS_terminated _)]
  exact C07_sleb_roundtrip v rest

example : (Rdr.window (.file [9#8, 0x80#8, 1#8, 7#8]) 1 3).content.drop 0 = encodeU 128 ++ [7#8] := by
  simp [Rdr.content]; unfold encodeU; unfold encodeU; decide

/-- C07, the excluded inputs: more than ten bytes shift by 64 or more, which C++ leaves undefined. -/
theorem C07_leb_overlong (bs rest : List Byte) (ht : Terminated bs) (hl : 10 < bs.length) :
    readULEB128 (bs ++ rest) = .ub ∧ readSLEB128 (bs ++ rest) = .ub :=
  ⟨leb_overlong _ _ _ _ _ _ ht (by omega) (by omega), leb_overlong _ _ _ _ _ _ ht (by omega) (by omega)⟩

-- non-vacuity: -129 needs two bytes, a padded encoding of 1 is terminated
example : encodeS (-129) = [0xff#8, 0x7e#8] ∧ Terminated [0x81#8, 0x80#8, 0#8] := by
  constructor
  · unfold encodeS; unfold encodeS; decide
  · simp [Terminated]

end Pstack.Props
