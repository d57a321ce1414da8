import Verif.Proof.Compressed
/-
C43: compressed contents (lzma.cc, inflate.cc, elf.cc).
-/
namespace Pstack.Props
open Pstack.Reader Pstack.Compressed Pstack.Spec

/-! ### LZMA -/

/-- C43, LZMA: after any reads of a file whose blocks can be decoded, a read of a range inside its contents returns that part of them.
(Partial: a range that reaches beyond the end raises an exception and is not cut there as other readers do, see `C43_lzma_past`; of a file with a damaged block see `C43_not_after_error`.) -/
theorem C43_lzma_partial {z : Lzma} {up : Nat → Nat → Res (List Byte)} {data : List Byte} (ha : Archive z up 0 z.blocks data) {cache : LzCache} (h : LzHist z up cache) (off n : Nat) (hr : off + n ≤ data.length) :
    (z.read up cache off n).2 = .ok ((data.drop off).take n) := (read_archive ha n off cache (h.inv ha)).2.1 hr

/-- The size that is reported is that of the contents. -/
theorem C43_lzma_size {z : Lzma} {up : Nat → Nat → Res (List Byte)} {data : List Byte} (ha : Archive z up 0 z.blocks data) : z.size = data.length := ha.length

/-- What reaches beyond the end is refused. -/
theorem C43_lzma_past {z : Lzma} {up : Nat → Nat → Res (List Byte)} {data : List Byte} (ha : Archive z up 0 z.blocks data) {cache : LzCache} (h : LzHist z up cache) (off n : Nat) (hn : n ≠ 0)
    (hr : data.length < off + n) : (z.read up cache off n).2 = .exc := (read_archive ha n off cache (h.inv ha)).2.2 hn hr

/-- C43, LZMA, files in which some blocks may be damaged: while no read has failed, what a read returns are the bytes of the blocks of its range, all of which can be decoded. -/
theorem C43_lzma_until_error {z : Lzma} {up : Nat → Nat → Res (List Byte)} (hi : Indexed 0 z.blocks) {cache : LzCache} (h : LzOk z up cache) (off n : Nat) {bs : List Byte}
    (hr : (z.read up cache off n).2 = .ok bs) : bs.length = n ∧ ∀ k, k < n → ∃ b c hd out, b ∈ z.blocks ∧ b.uoff ≤ off + k ∧ off + k < b.uoff + b.usize ∧
      up b.coff b.csize = .ok c ∧ z.header c = some hd ∧ z.decode hd c b.usize = (true, out) ∧ (off + k - b.uoff < out.length → bs[k]? = out[off + k - b.uoff]?) := by
  obtain ⟨_, h2, h3⟩ := read_indexed hi n off cache bs (h.inv hi) hr
  refine ⟨h2, fun k hk => ?_⟩
  obtain ⟨b, v, q1, q2, q3, ⟨c, hd, out, r1, r2, r3, r4, r5⟩, q5⟩ := h3 k hk
  refine ⟨b, c, hd, out, q1, q2, q3, r1, r3, r4, fun hlt => ?_⟩
  rw [q5, r5]
  unfold overZeros
  rw [List.getElem?_take_of_lt (by omega), List.getElem?_append_left hlt]

/-- Two blocks; the decoder gives as many bytes as asked for, each its first. -/
def sampleLzma : Lzma where
  blocks := [⟨0, 3, 0, 2⟩, ⟨3, 2, 2, 2⟩]
  header := fun _ => some 0
  decode := fun _ c n => (c ≠ [0#8, 0#8], List.replicate n (c.headD 0#8))

def sampleUp (content : List Byte) : Nat → Nat → Res (List Byte) := (Rdr.file content).readObj

theorem sampleLzma_archive : Archive sampleLzma (sampleUp [7#8, 1#8, 8#8, 1#8]) 0 sampleLzma.blocks [7#8, 7#8, 7#8, 8#8, 8#8] := by
  refine .cons (piece := [7#8, 7#8, 7#8]) rfl (by decide) ⟨[7#8, 1#8], 0, by decide, by decide, rfl, by decide, rfl⟩ ?_
  refine .cons (piece := [8#8, 8#8]) (rest := []) rfl (by decide) ⟨[8#8, 1#8], 0, by decide, by decide, rfl, by decide, rfl⟩ (.nil _)

/-- A read across the blocks, after another. -/
theorem C43_example : (sampleLzma.read (sampleUp [7#8, 1#8, 8#8, 1#8]) (sampleLzma.read (sampleUp [7#8, 1#8, 8#8, 1#8]) (fun _ => []) 4 1).1 1 3).2 = .ok [7#8, 7#8, 8#8] :=
  C43_lzma_partial sampleLzma_archive (.read 4 1 .start) 1 3 (by decide)

/-- C43 fails after an error: the first read of a block that cannot be decoded raises an exception, but it leaves a block of zeros behind, and the same read returns these from then on. -/
theorem C43_not_after_error : ∃ (z : Lzma) (up : Nat → Nat → Res (List Byte)) (off n : Nat), Indexed 0 z.blocks ∧ (z.read up (fun _ => []) off n).2 = .exc ∧
    (z.read up (z.read up (fun _ => []) off n).1 off n).2 = .ok [0#8, 0#8] := by
  have h0 : sampleLzma.fill (sampleUp [7#8, 1#8, 0#8, 0#8]) (fun _ => []) ⟨3, 2, 2, 2⟩ = (LzCache.put (fun _ => []) 3 [0#8, 0#8], .exc) := by
    have hu : sampleUp [7#8, 1#8, 0#8, 0#8] 2 2 = .ok [0#8, 0#8] := by decide
    unfold Lzma.fill
    rw [if_neg (by simp)]
    simp only
    rw [hu]
    rfl
  have e1 : sampleLzma.read (sampleUp [7#8, 1#8, 0#8, 0#8]) (fun _ => []) 3 2 = (LzCache.put (fun _ => []) 3 [0#8, 0#8], .exc) := by
    have hl : sampleLzma.locate 3 = some ⟨3, 2, 2, 2⟩ := by decide
    rw [Lzma.read, dif_neg (by decide), hl]
    simp only
    rw [h0]
  refine ⟨sampleLzma, sampleUp [7#8, 1#8, 0#8, 0#8], 3, 2, .cons rfl (by decide) (.cons rfl (by decide) (.nil _)), by rw [e1], ?_⟩
  rw [e1]
  have hl : sampleLzma.locate 3 = some ⟨3, 2, 2, 2⟩ := by decide
  have hf : sampleLzma.fill (sampleUp [7#8, 1#8, 0#8, 0#8]) (LzCache.put (fun _ => []) 3 [0#8, 0#8]) ⟨3, 2, 2, 2⟩ = (LzCache.put (fun _ => []) 3 [0#8, 0#8], .ok [0#8, 0#8]) := by
    unfold Lzma.fill
    rw [if_pos (by decide)]
    rfl
  rw [read_turn (by decide) hl (v := [0#8, 0#8]) (by rw [hf]) (by decide)]
  have h5 : (2 - min (([0#8, 0#8] : List Byte).length - (3 - (⟨3, 2, 2, 2⟩ : LzBlock).uoff)) 2) = 0 := by decide
  rw [h5, Lzma.read, dif_pos rfl]
  rfl

/-- A block from which less is decoded than the index says is filled with zeros, without an error. -/
theorem C43_not_short : ∃ (z : Lzma) (up : Nat → Nat → Res (List Byte)) (b : LzBlock), b ∈ z.blocks ∧ (∃ c h, up b.coff b.csize = .ok c ∧ z.header c = some h ∧ z.decode h c b.usize = (true, [9#8])) ∧
    (z.fill up (fun _ => []) b).2 = .ok [9#8, 0#8, 0#8] := by
  refine ⟨⟨[⟨0, 3, 0, 1⟩], fun _ => some 0, fun _ _ _ => (true, [9#8])⟩, sampleUp [1#8], ⟨0, 3, 0, 1⟩, by decide, ⟨[1#8], 0, by decide, rfl, rfl⟩, ?_⟩
  have hu : sampleUp [1#8] 0 1 = .ok [1#8] := by decide
  unfold Lzma.fill
  rw [if_neg (by simp)]
  simp only
  rw [hu]
  rfl

/-! ### zlib -/

/-- C43, zlib: a stream, given its size, below 2^32, becomes a reader of exactly its contents, whatever pieces its source comes in. -/
theorem C43_inflate {z : Zlib} {c p content : List Byte} {R : z.State → Nat → Nat → Prop} {up : Nat → Nat → Res (List Byte)} (hz : Inflates z c p content R) (hg : Gives up content)
    (hc : c.length ≤ content.length) (hp : p.length < 2 ^ 32) {fuel : Nat} (hf : c.length + p.length < fuel) : ∃ r, inflateReader z p.length up fuel = some (.ok r) ∧ r.WF ∧ r.content = p := by
  refine ⟨_, (inflateReader_spec hz hg p.length fuel hf).1 hc (by omega), ?_, ?_⟩
  · rw [overZeros_full rfl]
    exact ⟨by omega, by rw [W64_eq]; omega⟩
  · rw [overZeros_full rfl]
    simp [Rdr.content]

/-- Every range of it is read as the part of the contents it is. -/
theorem C43_inflate_read {z : Zlib} {c p content : List Byte} {R : z.State → Nat → Nat → Prop} {up : Nat → Nat → Res (List Byte)} (hz : Inflates z c p content R) (hg : Gives up content)
    (hc : c.length ≤ content.length) (hp : p.length < 2 ^ 32) {fuel : Nat} (hf : c.length + p.length < fuel) (off n : Nat) (ho : off ≤ p.length) (hn : off + n < 2 ^ 64) :
    ∃ r, inflateReader z p.length up fuel = some (.ok r) ∧ r.read off n = .ok ((p.drop off).take n) := by
  obtain ⟨r, h1, h2, h3⟩ := C43_inflate hz hg hc hp hf
  refine ⟨r, h1, ?_⟩
  have hl := (content_length r h2).1
  rw [read_content r h2 off n (by rw [← hl, h3]; exact ho) (by rw [W64_eq]; exact hn), h3]

/-- A stream of fewer bytes than was said is filled with zeros, without an error. -/
theorem C43_inflate_short {z : Zlib} {c p content : List Byte} {R : z.State → Nat → Nat → Prop} {up : Nat → Nat → Res (List Byte)} (hz : Inflates z c p content R) (hg : Gives up content)
    (hc : c.length ≤ content.length) {N : Nat} (hN : N < 2 ^ 32) (hp : p.length ≤ N) {fuel : Nat} (hf : c.length + p.length < fuel) :
    inflateReader z N up fuel = some (.ok (.mem (p ++ List.replicate (N - p.length) 0#8) 0 N)) := by
  rw [(inflateReader_spec hz hg N fuel hf).1 hc (by omega)]
  unfold overZeros
  rw [List.take_of_length_le (by simp; omega)]

/-- A stream of more bytes than was said, or one that is cut off, is refused. -/
theorem C43_inflate_refused {z : Zlib} {c p content : List Byte} {R : z.State → Nat → Nat → Prop} {up : Nat → Nat → Res (List Byte)} (hz : Inflates z c p content R) (hg : Gives up content)
    {N : Nat} (h : content.length < c.length ∨ N < p.length) {fuel : Nat} (hf : c.length + p.length < fuel) : inflateReader z N up fuel = some .exc := by
  refine (inflateReader_spec hz hg N fuel hf).2 ?_
  rcases h with h | h
  · exact .inl h
  · exact .inr (Nat.lt_of_le_of_lt (Nat.mod_le _ _) h)

/-- C43 fails from 2^32 bytes on: the size is cut to 32 bits for zlib, and every stream of 4 GiB or more is refused. -/
theorem C43_not_large {z : Zlib} {c p content : List Byte} {R : z.State → Nat → Nat → Prop} {up : Nat → Nat → Res (List Byte)} (hz : Inflates z c p content R) (hg : Gives up content)
    (hp : 2 ^ 32 ≤ p.length) {fuel : Nat} (hf : c.length + p.length < fuel) : inflateReader z p.length up fuel = some .exc :=
  (inflateReader_spec hz hg p.length fuel hf).2 (.inr (by omega))

/-! ### Sections -/

theorem readObj_content {r : Rdr} (h : r.WF) (n : Nat) (hn : n ≠ 0) (h1 : n ≤ r.size) : r.readObj 0 n = .ok (r.content.take n) := by
  have hl := content_length r h
  unfold Rdr.readObj
  rw [if_neg hn, read_content r h 0 n (by omega) (by omega), Res.bind_ok, List.drop_zero, if_neg]
  rw [List.length_take]; omega

/-- C43, sections with SHF_COMPRESSED: a header that gives the size, and a stream after it. -/
theorem C43_section {z : Zlib} {elf : Rdr} (he : elf.WF) (hes : elf.size + xferSize < 2 ^ 64) {h : SectHdr} (hn : h.isNull = false) (hc : h.compressed = true) (hin : h.offset + h.size ≤ elf.size)
    {ty al rest c p : List Byte} (hcont : (elf.content.drop h.offset).take h.size = ty ++ lowFirst p.length ++ al ++ rest) (hty : ty.length = 8) (hal : al.length = 8) (hp : p.length < 2 ^ 32)
    {R : z.State → Nat → Nat → Prop} (hz : Inflates z c p rest R) (hr : c.length ≤ rest.length) {fuel : Nat} (hf : c.length + p.length < fuel) :
    ∃ r, sectionIo z elf h fuel = some (.ok r) ∧ r.WF ∧ r.content = p := by
  have hl : (ty ++ lowFirst p.length ++ al).length = 24 := by rw [List.length_append, List.length_append, lowFirst_length]; omega
  have hsz : leNat (((ty ++ lowFirst p.length ++ al).drop 8).take 8) = p.length := by
    rw [List.append_assoc, ← hty, List.drop_left, hty, ← lowFirst_length p.length, List.take_left]
    exact leNat_lowFirst (by omega)
  generalize ty ++ lowFirst p.length ++ al = chdr at hcont hl hsz
  have hel := content_length elf he
  have hx : xferSize = 32768 := rfl
  have e64 := W64_eq
  have hmax : maxOff = W64 - 1 := rfl
  obtain ⟨v1, v2⟩ := view_content elf he h.offset h.size (by omega) hin
  have hrl := (content_length _ v1)
  rw [v2, hcont] at hrl
  have hsize : chdr.length + rest.length = h.size := by
    have := congrArg List.length hcont
    rw [List.length_append, List.length_take, List.length_drop] at this
    omega
  rw [List.length_append] at hrl
  obtain ⟨w1, w2⟩ := view_content _ v1 24 (h.size - 24) (by omega) (by omega)
  rw [v2, hcont] at w2
  have e3 : ((chdr ++ rest).drop 24).take (h.size - 24) = rest := by
    rw [← hl, List.drop_left, List.take_of_length_le (by omega)]
  rw [e3] at w2
  have hwl := content_length _ w1
  rw [w2] at hwl
  have hg := gives_reader w1 (by omega)
  rw [w2] at hg
  unfold sectionIo
  rw [if_neg (by rw [hn]; decide)]
  simp only
  rw [if_pos hc, readObj_content v1 24 (by decide) (by omega), v2, hcont, ← hl, List.take_left]
  simp only
  rw [hsz, hl, show (h.size + W64 - 24) % W64 = h.size - 24 by rw [show h.size + W64 - 24 = (h.size - 24) + W64 by omega, Nat.add_mod_right, Nat.mod_eq_of_lt (by omega)]]
  exact C43_inflate hz hg hr hp hf

/-- A section that is not compressed is the part of the object it says. -/
theorem C43_section_plain {z : Zlib} {elf : Rdr} (he : elf.WF) {h : SectHdr} (hn : h.isNull = false) (hc : h.compressed = false) (hname : zdebugPrefix.isPrefixOf h.name = false)
    (hin : h.offset + h.size ≤ elf.size) (hmax : h.size ≠ 2 ^ 64 - 1) (fuel : Nat) : ∃ r, sectionIo z elf h fuel = some (.ok r) ∧ r.WF ∧ r.content = (elf.content.drop h.offset).take h.size := by
  obtain ⟨v1, v2⟩ := view_content elf he h.offset h.size (by rw [show maxOff = 2 ^ 64 - 1 from by decide]; exact hmax) hin
  refine ⟨_, ?_, v1, v2⟩
  unfold sectionIo
  rw [if_neg (by rw [hn]; decide)]
  simp only
  rw [if_neg (by rw [hc]; decide), if_neg (by rw [hname]; decide)]

/-- C43, sections named `.zdebug_...`: the letters ZLIB, the size in big endian, and a stream.
(Partial: the stream must not be longer than its contents, and the object must reach as far beyond the start of the stream as the contents are long: the code takes the size of the contents for that
of the stream. See `C43_zdebug_longer` and `C43_not_zdebug_end`.) -/
theorem C43_zdebug_partial {z : Zlib} {elf : Rdr} (he : elf.WF) (hes : elf.size + xferSize < 2 ^ 64) {h : SectHdr} (hn : h.isNull = false) (hc : h.compressed = false)
    (hname : zdebugPrefix.isPrefixOf h.name = true) (hin : h.offset + h.size ≤ elf.size)
    {c p : List Byte} (hcont : (elf.content.drop h.offset).take h.size = [0x5a#8, 0x4c#8, 0x49#8, 0x42#8] ++ highFirst p.length ++ c) (hp : p.length < 2 ^ 32)
    (hshort : c.length ≤ p.length) (hroom : h.offset + 12 + p.length ≤ elf.size)
    {R : z.State → Nat → Nat → Prop} (hz : Inflates z c p ((elf.content.drop (h.offset + 12)).take p.length) R) {fuel : Nat} (hf : c.length + p.length < fuel) :
    ∃ r, sectionIo z elf h fuel = some (.ok r) ∧ r.WF ∧ r.content = p := by
  have hel := content_length elf he
  have hx : xferSize = 32768 := rfl
  have e64 := W64_eq
  have hmax : maxOff = W64 - 1 := rfl
  have hzl : zlibMagic.length = 4 := rfl
  have hl := highFirst_length p.length
  have hsz := beNat_highFirst (n := p.length) (by omega)
  generalize highFirst p.length = size8 at hcont hl hsz
  rw [show [0x5a#8, 0x4c#8, 0x49#8, 0x42#8] = zlibMagic from by decide] at hcont
  obtain ⟨v1, v2⟩ := view_content elf he h.offset h.size (by omega) hin
  have hrl := (content_length _ v1)
  rw [v2, hcont] at hrl
  rw [List.length_append, List.length_append] at hrl
  obtain ⟨w1, w2⟩ := view_content elf he (h.offset + 12) p.length (by omega) hroom
  have hwl := content_length _ w1
  rw [w2] at hwl
  have hg := gives_reader w1 (by rw [← hwl.1, List.length_take]; omega)
  rw [w2] at hg
  unfold sectionIo
  rw [if_neg (by rw [hn]; decide)]
  simp only
  have e12 : (zlibMagic ++ size8 ++ c).take 12 = zlibMagic ++ size8 := by
    have : (zlibMagic ++ size8).length = 12 := by rw [List.length_append]; omega
    rw [← this, List.take_left]
  rw [if_neg (by rw [hc]; decide), if_pos hname, readObj_content v1 12 (by decide) (by omega), v2, hcont, e12]
  simp only
  have e4 : (zlibMagic ++ size8).take 4 = zlibMagic := by rw [← hzl, List.take_left]
  have e5 : (zlibMagic ++ size8).drop 4 = size8 := by rw [← hzl, List.drop_left]
  rw [e4, e5, if_pos rfl, hsz, view_view elf he _ _ _ _ (by omega)]
  refine C43_inflate hz hg ?_ hp hf
  rw [List.length_take, List.length_drop]
  omega

/-- A `.zdebug_` section whose stream is longer than its contents is refused, though it is sound. -/
theorem C43_zdebug_longer {z : Zlib} {elf : Rdr} (he : elf.WF) (hes : elf.size + xferSize < 2 ^ 64) {h : SectHdr} (hn : h.isNull = false) (hc : h.compressed = false)
    (hname : zdebugPrefix.isPrefixOf h.name = true) (hin : h.offset + h.size ≤ elf.size)
    {c p : List Byte} (hcont : (elf.content.drop h.offset).take h.size = [0x5a#8, 0x4c#8, 0x49#8, 0x42#8] ++ highFirst p.length ++ c) (hlong : p.length < c.length)
    {R : z.State → Nat → Nat → Prop} (hz : Inflates z c p ((elf.content.drop (h.offset + 12)).take p.length) R) {fuel : Nat} (hf : c.length + p.length < fuel) :
    sectionIo z elf h fuel = some .exc := by
  have hel := content_length elf he
  have hx : xferSize = 32768 := rfl
  have e64 := W64_eq
  have hmax : maxOff = W64 - 1 := rfl
  have hzl : zlibMagic.length = 4 := rfl
  have hl := highFirst_length p.length
  have hsz := beNat_highFirst (n := p.length) (by
    have h1 := congrArg List.length hcont
    rw [List.length_append, List.length_take] at h1
    omega)
  generalize highFirst p.length = size8 at hcont hl hsz
  rw [show [0x5a#8, 0x4c#8, 0x49#8, 0x42#8] = zlibMagic from by decide] at hcont
  obtain ⟨v1, v2⟩ := view_content elf he h.offset h.size (by omega) hin
  have hrl := (content_length _ v1)
  rw [v2, hcont] at hrl
  rw [List.length_append, List.length_append] at hrl
  have hsize : 12 + c.length = h.size := by
    have := congrArg List.length hcont
    rw [List.length_append, List.length_append, List.length_take, List.length_drop] at this
    omega
  obtain ⟨w1, w2⟩ := view_content elf he (h.offset + 12) p.length (by omega) (by omega)
  have hwl := content_length _ w1
  rw [w2] at hwl
  have hg := gives_reader w1 (by rw [← hwl.1, List.length_take]; omega)
  rw [w2] at hg
  unfold sectionIo
  rw [if_neg (by rw [hn]; decide)]
  simp only
  have e12 : (zlibMagic ++ size8 ++ c).take 12 = zlibMagic ++ size8 := by
    have : (zlibMagic ++ size8).length = 12 := by rw [List.length_append]; omega
    rw [← this, List.take_left]
  rw [if_neg (by rw [hc]; decide), if_pos hname, readObj_content v1 12 (by decide) (by omega), v2, hcont, e12]
  simp only
  have e4 : (zlibMagic ++ size8).take 4 = zlibMagic := by rw [← hzl, List.take_left]
  have e5 : (zlibMagic ++ size8).drop 4 = size8 := by rw [← hzl, List.drop_left]
  rw [e4, e5, if_pos rfl, hsz, view_view elf he _ _ _ _ (by omega)]
  refine C43_inflate_refused hz hg (.inl ?_) hf
  rw [List.length_take]
  omega

/-- C43 fails for `.zdebug_` sections near the end of a mapped object: what is read for the decompressor reaches beyond the object. Here 100 bytes of contents are announced by a section of 17. -/
theorem C43_not_zdebug_end : ∃ (elf : Rdr) (h : SectHdr), elf.WF ∧ h.offset + h.size ≤ elf.size ∧ zdebugPrefix.isPrefixOf h.name = true ∧
    ∀ (z : Zlib) (fuel : Nat), sectionIo z elf h (fuel + 1) = some .ub := by
  refine ⟨.mem (zlibMagic ++ [0#8, 0#8, 0#8, 0#8, 0#8, 0#8, 0#8, 100#8] ++ [1#8, 2#8, 3#8, 4#8, 5#8]) 0 17, ⟨zdebugPrefix, false, false, 0, 17⟩, ⟨by decide, by decide⟩, by decide, by decide, ?_⟩
  intro z fuel
  have h1 : (((Rdr.mem (zlibMagic ++ [0#8, 0#8, 0#8, 0#8, 0#8, 0#8, 0#8, 100#8] ++ [1#8, 2#8, 3#8, 4#8, 5#8]) 0 17).view 0 17).readObj 0 12) = .ok (zlibMagic ++ [0#8, 0#8, 0#8, 0#8, 0#8, 0#8, 0#8, 100#8]) := by
    decide
  have h2 : ((((Rdr.mem (zlibMagic ++ [0#8, 0#8, 0#8, 0#8, 0#8, 0#8, 0#8, 100#8] ++ [1#8, 2#8, 3#8, 4#8, 5#8]) 0 17).view 0 17).view 12 100).read 0 xferSize) = .ub := by decide
  have h3 : beNat ((zlibMagic ++ [0#8, 0#8, 0#8, 0#8, 0#8, 0#8, 0#8, 100#8]).drop 4) = 100 := by decide
  unfold sectionIo
  rw [if_neg (by decide)]
  simp only
  rw [if_neg (by decide), if_pos (by decide), h1]
  simp only
  rw [if_pos (by decide), h3]
  unfold inflateReader inflateLoop refill
  simp only [and_self, if_true]
  rw [h2]
  rfl

/-! ### A decompressor -/

/-- Contents without zeros, and a zero after them. -/
def zeroEnded : Zlib where
  State := Unit
  init := ()
  inflate := fun _ inp k fin =>
    let w := inp.takeWhile (· ≠ 0#8)
    if w.length < inp.length ∧ w.length ≤ k then (.streamEnd, w.length + 1, w, ())
    else (if fin = false ∧ 0 < min w.length k then .ok else .other, min w.length k, w.take k, ())

theorem takeWhile_zero {p rest : List Byte} (hp : 0#8 ∉ p) : (p ++ 0#8 :: rest).takeWhile (· ≠ 0#8) = p := by
  induction p with
  | nil => simp
  | cons b p ih =>
    have hb : b ≠ 0#8 := fun e => hp (by rw [e]; exact List.mem_cons_self)
    rw [List.cons_append, List.takeWhile_cons, if_pos (by simpa using hb), ih (fun h => hp (List.mem_cons_of_mem _ h))]

theorem takeWhile_nozero {p : List Byte} (hp : 0#8 ∉ p) : p.takeWhile (· ≠ 0#8) = p := by
  induction p with
  | nil => rfl
  | cons b p ih =>
    have hb : b ≠ 0#8 := fun e => hp (by rw [e]; exact List.mem_cons_self)
    rw [List.takeWhile_cons, if_pos (by simpa using hb), ih (fun h => hp (List.mem_cons_of_mem _ h))]

/-- It is as `Inflates` asks. -/
theorem zeroEnded_inflates (p rest : List Byte) (hp : 0#8 ∉ p) : Inflates zeroEnded (p ++ [0#8]) p (p ++ 0#8 :: rest) (fun _ i o => i = o ∨ p.length < i) where
  init := .inl rfl
  ne := by simp
  step := by
    intro s i o n k fin ret used made s' hR hi ho hst
    rw [List.length_append, List.length_singleton] at hi ⊢
    have hR : i = o := by omega
    subst hR
    have hdrop : (p ++ 0#8 :: rest).drop i = p.drop i ++ 0#8 :: rest := by
      rw [List.drop_append_of_le_length (by omega)]
    have hp' : 0#8 ∉ p.drop i := fun h => hp (List.mem_of_mem_drop h)
    rw [hdrop] at hst ⊢
    have hst : (if (((p.drop i ++ 0#8 :: rest).take n).takeWhile (· ≠ 0#8)).length < ((p.drop i ++ 0#8 :: rest).take n).length ∧ (((p.drop i ++ 0#8 :: rest).take n).takeWhile (· ≠ 0#8)).length ≤ k then
        (ZRet.streamEnd, (((p.drop i ++ 0#8 :: rest).take n).takeWhile (· ≠ 0#8)).length + 1, ((p.drop i ++ 0#8 :: rest).take n).takeWhile (· ≠ 0#8), ())
      else (if fin = false ∧ 0 < min (((p.drop i ++ 0#8 :: rest).take n).takeWhile (· ≠ 0#8)).length k then ZRet.ok else ZRet.other, min (((p.drop i ++ 0#8 :: rest).take n).takeWhile (· ≠ 0#8)).length k,
        (((p.drop i ++ 0#8 :: rest).take n).takeWhile (· ≠ 0#8)).take k, ())) = (ret, used, made, s') := hst
    have hpl : (p.drop i).length = p.length - i := List.length_drop
    generalize p.drop i = q at hst hp' hpl ⊢
    by_cases hn : n ≤ q.length
    · have e : (q ++ 0#8 :: rest).take n = q.take n := by rw [List.take_append_of_le_length hn]
      rw [e] at hst ⊢
      rw [takeWhile_nozero (fun h => hp' (List.mem_of_mem_take h))] at hst
      rw [if_neg (by omega)] at hst
      have hl : (q.take n).length = n := by rw [List.length_take]; omega
      rw [hl] at hst ⊢
      injection hst with h1 hst
      injection hst with h2 hst
      injection hst with h3 hst
      subst h1 h2 h3
      have hml : ((q.take n).take k).length = min n k := by rw [List.length_take, hl]; omega
      rw [hml]
      refine ⟨by omega, by omega, by rw [List.take_take]; congr 1; omega, by omega, .inl rfl, ?_, by omega, fun _ => by omega, fun _ => ?_⟩
      · split <;> exact ⟨fun h => (by cases h), fun h => by omega⟩
      · split
        · rename_i h; exact ⟨fun _ => ⟨h.1, .inl h.2⟩, fun _ => rfl⟩
        · rename_i h; exact ⟨fun h' => (by cases h'), fun h' => absurd ⟨h'.1, by omega⟩ h⟩
    · have e : (q ++ 0#8 :: rest).take n = q ++ 0#8 :: rest.take (n - q.length - 1) := by
        rw [List.take_append, List.take_of_length_le (by omega)]
        congr 1
        obtain ⟨m, hm⟩ : ∃ m, n - q.length = m + 1 := ⟨n - q.length - 1, by omega⟩
        rw [hm]; rfl
      rw [e] at hst ⊢
      rw [takeWhile_zero hp'] at hst
      have hl : (q ++ 0#8 :: rest.take (n - q.length - 1)).length = q.length + 1 + (rest.take (n - q.length - 1)).length := by rw [List.length_append, List.length_cons]; omega
      rw [hl] at hst ⊢
      by_cases hk : q.length ≤ k
      · rw [if_pos ⟨by omega, hk⟩] at hst
        injection hst with h1 hst
        injection hst with h2 hst
        injection hst with h3 hst
        subst h1 h2 h3
        exact ⟨by omega, by omega, (List.take_length).symm, hk, .inr (by omega), ⟨fun _ => by omega, fun _ => rfl⟩, fun _ => by omega, fun h => absurd rfl h, fun h => absurd rfl h⟩
      · rw [if_neg (by omega)] at hst
        injection hst with h1 hst
        injection hst with h2 hst
        injection hst with h3 hst
        subst h1 h2 h3
        have hml : (q.take k).length = min q.length k := by rw [List.length_take]; omega
        rw [hml]
        refine ⟨by omega, by omega, by congr 1; omega, by omega, .inl rfl, ?_, by omega, fun _ => .inr ⟨by omega, by omega⟩, fun _ => ?_⟩
        · split <;> exact ⟨fun h => (by cases h), fun h => by omega⟩
        · split
          · rename_i h; exact ⟨fun _ => ⟨h.1, .inl h.2⟩, fun _ => rfl⟩
          · rename_i h; exact ⟨fun h' => (by cases h'), fun h' => absurd ⟨h'.1, by omega⟩ h⟩

/-- A section with a header, a stream of three bytes and its end. -/
theorem C43_section_example : ∃ r, sectionIo zeroEnded (.file (List.replicate 8 0#8 ++ [3#8] ++ List.replicate 15 0#8 ++ [5#8, 6#8, 7#8, 0#8])) ⟨[], false, true, 0, 28⟩ 100 = some (.ok r) ∧ r.WF ∧ r.content = [5#8, 6#8, 7#8] :=
  C43_section (elf := .file (List.replicate 8 0#8 ++ [3#8] ++ List.replicate 15 0#8 ++ [5#8, 6#8, 7#8, 0#8])) (h := ⟨[], false, true, 0, 28⟩) (c := [5#8, 6#8, 7#8] ++ [0#8]) (p := [5#8, 6#8, 7#8]) (ty := List.replicate 8 0#8) (al := List.replicate 8 0#8) (rest := [5#8, 6#8, 7#8] ++ [0#8])
    (by simp [Rdr.WF, W64]) (by decide) rfl rfl (by decide) (by decide) (by decide) (by decide) (by decide) (zeroEnded_inflates [5#8, 6#8, 7#8] [] (by decide)) (by decide) (by decide)

end Pstack.Props
