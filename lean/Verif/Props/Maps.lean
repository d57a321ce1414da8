import Verif.Proof.Maps
/-
C44: the maps of a process (live.cc).
-/
namespace Pstack.Props
open Pstack.Maps Pstack.Spec

/-- C44: from what the kernel writes about mappings, one range is made for each of them, in their order, with its bounds, its permissions, its offset, the numbers of its device and its path
(`<anon>` when it has none); its flags are those that are known of all flags written but the first; its inode is the decimal number that was written, read as hexadecimal; the end of its file is 0.
(Partial: the inode is right only below ten, see `C44_not_inode`; the first flag is lost, see `C44_not_flag`; the end of the file is not known, see `C44_not_fileEnd`.) -/
theorem C44_maps_partial (ms : List Mapping) (hms : ∀ m ∈ ms, m.Valid) : ∃ rs, procAddressSpace (mapsText ms) = .ok rs ∧ rs.length = ms.length ∧
    ∀ (i : Nat) m r, ms[i]? = some m → rs[i]? = some r →
      r.start.toNat = m.start ∧ r.stop.toNat = m.stop ∧ r.offset.toNat = m.offset ∧ r.major.toNat = m.major ∧ r.minor.toNat = m.minor ∧
      r.path = m.path.getD "<anon>".toList ∧
      (r.permissions .read = m.read ∧ r.permissions .write = m.write ∧ r.permissions .exec = m.exec ∧ r.permissions .shared = m.shared ∧ r.permissions .priv = !m.shared) ∧
      (∀ f, r.vmflags f = true ↔ f ∈ (m.flags.getD []).tail ∧ f ∈ flagNames) ∧
      r.inode.toNat = misread m.inode % 2 ^ 64 ∧ r.fileEnd = 0 := by
  obtain ⟨rs, h1, h2, h3⟩ := addressSpace_mappings ms hms
  refine ⟨rs, ?_, h2, ?_⟩
  · unfold procAddressSpace mapsText
    rw [linesOf_lines, h1]
    intro l hl
    obtain ⟨m, hm, hl⟩ := List.mem_flatMap.1 hl
    exact lines_newline (hms m hm) l hl
  · intro i m r hm hr
    obtain ⟨a1, a2, a3, a4, a5, a6, a7, a8, a9, a10⟩ := h3 i m r hm hr
    have hv := hms m (List.mem_of_getElem? hm)
    have v1 := hv.start
    have v2 := hv.stop
    have v3 := hv.offset
    have v4 := hv.major
    have v5 := hv.minor
    refine ⟨?_, ?_, ?_, ?_, ?_, a8, ?_, ?_, ?_, a3⟩
    · rw [a1, BitVec.toNat_ofNat]; omega
    · rw [a2, BitVec.toNat_ofNat]; omega
    · rw [a4, BitVec.toNat_ofNat]; omega
    · rw [a5, BitVec.toNat_setWidth, BitVec.toNat_ofNat]; omega
    · rw [a6, BitVec.toNat_setWidth, BitVec.toNat_ofNat]; omega
    · rw [a9]; exact ⟨rfl, rfl, rfl, rfl, rfl⟩
    · intro f
      rw [a10, Bool.and_eq_true, List.contains_iff_mem, List.contains_iff_mem]
    · rw [a7, BitVec.toNat_ofNat]

/-- An inode of one digit is read as it is. -/
theorem C44_inode_digit {n : Nat} (h : n < 10) : misread n = n := by rw [misread, dif_pos h]

/-- All others become larger: two files with inodes are told apart, but no inode of more than one digit is reported as it is. -/
theorem C44_inode_larger {n : Nat} (h : 10 ≤ n) : n < misread n := by
  have aux : ∀ n, n ≤ misread n := by
    intro n
    induction n using Nat.strongRecOn with
    | _ n ih =>
      rw [misread]
      split
      · exact Nat.le_refl _
      · have := ih (n / 10) (Nat.div_lt_self (by omega) (by omega))
        omega
  rw [misread, dif_neg (by omega)]
  have := aux (n / 10)
  omega

/-- Files with different inodes are still told apart, while these have no more than 16 digits. -/
theorem C44_inode_distinct {a b : Nat} (ha : a < 10 ^ 16) (hb : b < 10 ^ 16) (h : misread a % 2 ^ 64 = misread b % 2 ^ 64) : a = b := by
  have h1 := misread_bound 15 a ha
  have h2 := misread_bound 15 b hb
  have e : (16 : Nat) ^ (15 + 1) = 2 ^ 64 := by decide
  rw [e] at h1 h2
  rw [Nat.mod_eq_of_lt h1, Nat.mod_eq_of_lt h2] at h
  rcases Nat.lt_trichotomy a b with h' | h' | h'
  · have := misread_lt b a h'; omega
  · exact h'
  · have := misread_lt a b h'; omega

/-- A file of one mapping: line 1 of a program with the inode 10, and its flags. -/
def sampleMapping : Mapping :=
  { start := 4194304, stop := 4198400, read := true, write := false, exec := true, shared := false, offset := 4096, major := 8, minor := 1, inode := 10, blanks := 20
    path := some "/bin/my prog".toList, attrs := ["Rss:   4 kB".toList, "THPeligible:  0".toList], flags := some ["rd".toList, "ex".toList, "mr".toList, "zz".toList] }

theorem sampleMapping_valid : sampleMapping.Valid where
  start := by decide
  stop := by decide
  offset := by decide
  major := by decide
  minor := by decide
  path := by
    intro p hp
    injection hp with hp
    subst hp
    decide
  attrs := by
    intro l hl
    rcases List.mem_cons.1 hl with rfl | hl
    · exact ⟨by decide, ⟨'R', by decide, by decide, by decide⟩, by decide⟩
    · rw [List.mem_singleton] at hl
      subst hl
      exact ⟨by decide, ⟨'T', by decide, by decide, by decide⟩, by decide⟩
  flags := by
    intro l hl
    injection hl with hl
    subst hl
    decide

def anonMapping : Mapping :=
  { start := 0x7ffc00000000, stop := 0x7ffc00021000, read := true, write := true, exec := false, shared := true, offset := 0, major := 0, minor := 0, inode := 0, blanks := 0
    path := none, attrs := [], flags := none }

theorem anonMapping_valid : anonMapping.Valid where
  start := by decide
  stop := by decide
  offset := by decide
  major := by decide
  minor := by decide
  path := fun p hp => nomatch hp
  attrs := fun l hl => nomatch hl
  flags := fun l hl => nomatch hl

/-- This is how the file looks. -/
theorem sampleMapping_text : sampleMapping.line = "00400000-00401000 r-xp 00001000 08:01 10                     /bin/my prog".toList := by
  have h1 : hexText 8 4194304 = "00400000".toList := by simp [hexText, padTo, digits, digitChar]
  have h2 : hexText 8 4198400 = "00401000".toList := by simp [hexText, padTo, digits, digitChar]
  have h3 : hexText 8 4096 = "00001000".toList := by simp [hexText, padTo, digits, digitChar]
  have h4 : hexText 2 8 = "08".toList := by simp [hexText, padTo, digits, digitChar]
  have h5 : hexText 2 1 = "01".toList := by simp [hexText, padTo, digits, digitChar]
  have h6 : digits 10 10 = "10".toList := by simp [digits, digitChar]
  unfold Mapping.line sampleMapping
  simp only [h1, h2, h3, h4, h5, h6]
  decide

theorem C44_example : ∃ r r', procAddressSpace (mapsText [sampleMapping, anonMapping]) = .ok [r, r'] ∧
    r.start = 0x400000 ∧ r.stop = 0x401000 ∧ r.permissions .exec = true ∧ r.permissions .write = false ∧ r.path = "/bin/my prog".toList ∧ r.inode = 16 ∧
    r.vmflags "ex".toList = true ∧ r.vmflags "mr".toList = true ∧ r.vmflags "rd".toList = false ∧ r.vmflags "zz".toList = false ∧
    r'.start = 0x7ffc00000000 ∧ r'.permissions .shared = true ∧ r'.path = "<anon>".toList ∧ r'.vmflags "rd".toList = false := by
  obtain ⟨rs, h1, h2, h3⟩ := C44_maps_partial [sampleMapping, anonMapping] (by
    intro m hm
    rcases List.mem_cons.1 hm with rfl | hm
    · exact sampleMapping_valid
    · rw [List.mem_singleton] at hm; subst hm; exact anonMapping_valid)
  match rs, h2 with
  | [r, r'], _ =>
    obtain ⟨a1, a2, _, _, _, a6, ⟨_, a7, a8, _, _⟩, a9, a10, _⟩ := h3 0 _ r rfl rfl
    obtain ⟨b1, _, _, _, _, b6, ⟨_, _, _, b7, _⟩, b9, _⟩ := h3 1 _ r' rfl rfl
    refine ⟨r, r', h1, BitVec.eq_of_toNat_eq a1, BitVec.eq_of_toNat_eq a2, a8, a7, a6, BitVec.eq_of_toNat_eq ?_, ?_, ?_, ?_, ?_, BitVec.eq_of_toNat_eq b1, b7, b6, ?_⟩
    · rw [a10]
      have : misread 10 = 16 := by rw [misread, misread]; decide
      rw [show sampleMapping.inode = 10 from rfl, this]; rfl
    · exact (a9 _).2 (by decide)
    · exact (a9 _).2 (by decide)
    · exact Bool.eq_false_iff.2 (fun h => absurd ((a9 _).1 h) (by decide))
    · exact Bool.eq_false_iff.2 (fun h => absurd ((a9 _).1 h) (by decide))
    · exact Bool.eq_false_iff.2 (fun h => absurd ((b9 _).1 h) (by decide))

/-- C44 fails for inodes: `live.cc` reads the decimal number as hexadecimal. -/
theorem C44_not_inode : ∃ m : Mapping, m.Valid ∧ ∃ r, procAddressSpace (mapsText [m]) = .ok [r] ∧ r.inode.toNat ≠ m.inode := by
  refine ⟨sampleMapping, sampleMapping_valid, ?_⟩
  obtain ⟨rs, h1, h2, h3⟩ := C44_maps_partial [sampleMapping] (fun m hm => by rw [List.mem_singleton] at hm; subst hm; exact sampleMapping_valid)
  match rs, h2 with
  | [r], _ =>
    refine ⟨r, h1, ?_⟩
    have := (h3 0 _ r rfl rfl).2.2.2.2.2.2.2.2.1
    rw [this]
    have e : misread 10 = 16 := by rw [misread, misread]; decide
    rw [show sampleMapping.inode = 10 from rfl, e]; decide

/-- C44 fails for the first flag: the blank after the colon becomes a part of it, and it is not known then. For every mapping that can be read, the flag that says so is missing. -/
theorem C44_not_flag : ∃ m : Mapping, m.Valid ∧ ∃ r, procAddressSpace (mapsText [m]) = .ok [r] ∧ (∃ l, m.flags = some l ∧ "rd".toList ∈ l) ∧ "rd".toList ∈ flagNames ∧ r.vmflags "rd".toList = false := by
  refine ⟨sampleMapping, sampleMapping_valid, ?_⟩
  obtain ⟨rs, h1, h2, h3⟩ := C44_maps_partial [sampleMapping] (fun m hm => by rw [List.mem_singleton] at hm; subst hm; exact sampleMapping_valid)
  match rs, h2 with
  | [r], _ =>
    refine ⟨r, h1, ⟨_, rfl, by decide⟩, by decide, ?_⟩
    exact Bool.eq_false_iff.2 (fun h => absurd (((h3 0 _ r rfl rfl).2.2.2.2.2.2.2.1 _).1 h) (by decide))

/-- The end of the file is never set, so the size `canal` takes from it, `fileEnd - start`, is not that of the mapping (it is about 2^64). -/
theorem C44_not_fileEnd (ms : List Mapping) (hms : ∀ m ∈ ms, m.Valid) {rs : List Range} (h : procAddressSpace (mapsText ms) = .ok rs) (i : Nat) {m : Mapping} {r : Range} (hm : ms[i]? = some m)
    (hr : rs[i]? = some r) (h0 : 0 < m.start) : (r.fileEnd - r.start).toNat = 2 ^ 64 - m.start := by
  obtain ⟨rs', h1, _, h3⟩ := C44_maps_partial ms hms
  rw [h1] at h
  injection h with h
  subst h
  obtain ⟨a1, _, _, _, _, _, _, _, _, a3⟩ := h3 i m r hm hr
  have hv := (hms m (List.mem_of_getElem? hm)).start
  rw [a3, BitVec.toNat_sub, a1]
  show (2 ^ 64 - m.start + 0) % 2 ^ 64 = _
  omega

/-- Whatever the file contains, it is read or refused: there is no undefined behaviour. -/
theorem C44_total (input : Text) : (∃ rs, procAddressSpace input = .ok rs) ∨ procAddressSpace input = .exc := by
  unfold procAddressSpace
  exact addressSpace_total (linesOf input)

/-- A text with a line in which a letter that is no digit stands in the first number is refused. -/
theorem C44_refused (c : Char) (hc : ¬('0' ≤ c ∧ c ≤ '9') ∧ ¬('a' ≤ c ∧ c ≤ 'f') ∧ ¬('A' ≤ c ∧ c ≤ 'F') ∧ c ≠ '-' ∧ c ≠ '\n') (rest : Text) (hr : '\n' ∉ rest) : procAddressSpace (c :: rest) = .exc := by
  exact addressSpace_refused c hc rest hr

end Pstack.Props
