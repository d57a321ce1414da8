import Verif.Proof.StartupAll
/-
C74, C75: opening a process finds what is loaded in it and where, and which executable it runs.
-/
namespace Pstack.Props
open Pstack.Startup Pstack.Spec

/-- Memory that consists of some pieces. -/
def startMem (pieces : List (Nat × List Byte)) (a : Nat) : Option Byte := pieces.findSome? fun p => if p.1 ≤ a then p.2[a - p.1]? else none

instance (mem : Nat → Option Byte) (a : Nat) (l : List Byte) : Decidable (BytesIn mem a l) := by unfold BytesIn; infer_instance
instance (e : Nat × Nat) : Decidable (Pair64 e) := by unfold Pair64; infer_instance
instance (h : Header) : Decidable h.Fits := by unfold Header.Fits; infer_instance
instance (mem : Nat → Option Byte) (a : Nat) (n : NoteRec) : Decidable (NoteIn mem a n) := by unfold NoteIn; infer_instance

/-! ## C74: the objects of a process -/

/-- A process that is linked dynamically: the executable, the libraries of the link map and the vdso are recorded, each at its address, and nothing else. -/
theorem C74_objects_partial {P : Program} {w : World} (hm : P.InMemory w) (hp : P.Placed) {fn : Option Path} (hfn : P.ExecFn w fn) {v : Option (Nat × Image)} (hv : P.Vdso w v) {rdebug : Nat}
    (hd : P.Debug w.mem rdebug) (h0 : rdebug ≠ 0) (h1 : rdebug ≠ 2 ^ 64 - 1) {exe : LinkMap} {libs : List LinkMap} (hl : Linked w.mem rdebug (exe :: libs))
    (hs : ∀ l ∈ libs, l.nameAddr ≠ 0 → w.str l.nameAddr = .ok l.name) (given : Option Image) {fuel : Nat} (hf : libs.length + 1 < fuel)
    (hnd : ((vdsoObject v ++ exeObject "(exe)" exe.load (P.executable w given fn) ++ libraries w v libs).map (·.1)).Nodup) :
    ∃ p, load w fuel (Proc.new given) = some (.ok p) ∧ p.objects.Sorted ∧
      ∀ x, x ∈ p.objects ↔ x ∈ vdsoObject v ++ exeObject "(exe)" exe.load (P.executable w given fn) ++ libraries w v libs := by
  obtain ⟨p, h, _, _, ho⟩ := load_linked hm hp hfn hv hd h0 h1 hl hs given hf
  refine ⟨p, h, ?_, fun x => ?_⟩
  · rw [ho]; exact sorted_emplaceAll _ [] (List.Pairwise.nil)
  · rw [ho, mem_emplaceAll hnd (by simp)]
    simp

/-- One that has no dynamic section, as its headers and the image of the executable say: the executable is recorded as it is linked. -/
theorem C74_static_partial {P : Program} {w : World} (hm : P.InMemory w) (hp : P.Placed) {fn : Option Path} (hfn : P.ExecFn w fn) {v : Option (Nat × Image)} (hv : P.Vdso w v)
    (hd : P.headers.filter (·.type = 2) = []) (given : Option Image) (he : ∀ e, P.executable w given fn = some e → e.dynamics = [] ∧ e.interp = []) (fuel : Nat) :
    ∃ p, load w fuel (Proc.new given) = some (.ok p) ∧ p.objects.Sorted ∧ ∀ x, x ∈ p.objects ↔ x ∈ vdsoObject v ++ exeObject "" 0 (P.executable w given fn) := by
  obtain ⟨p, h, _, _, ho⟩ := load_static hm hp hfn hv hd given he fuel
  refine ⟨p, h, ?_, fun x => ?_⟩
  · rw [ho]; exact sorted_emplaceAll _ [] (List.Pairwise.nil)
  · rw [ho, mem_emplaceAll _ (by simp)]
    · simp
    · have := vdso_nonzero hv
      cases v with
      | none => cases P.executable w given fn <;> simp [vdsoObject, exeObject]
      | some x => cases P.executable w given fn <;> simp [vdsoObject, exeObject, this x rfl]

/-- A core in which the link map is missing: the files that were mapped take its place. -/
theorem C74_truncated_partial {P : Program} {w : World} (hm : P.InMemory w) (hp : P.Placed) {fn : Option Path} (hfn : P.ExecFn w fn) {v : Option (Nat × Image)} (hv : P.Vdso w v) {rdebug : Nat}
    (hd : P.Debug w.mem rdebug) (h0 : rdebug ≠ 0) (h1 : rdebug ≠ 2 ^ 64 - 1) (hno : ∃ i, i < 40 ∧ w.mem ((rdebug + i) % 2 ^ 64) = none) {files : List (Path × Nat × Nat)} (hn : w.fileNote = some files)
    (given : Option Image) (fuel : Nat) (hnd : ((vdsoObject v ++ noteObjects w files).map (·.1)).Nodup) :
    ∃ p, load w fuel (Proc.new given) = some (.ok p) ∧ p.objects.Sorted ∧ ∀ x, x ∈ p.objects ↔ x ∈ vdsoObject v ++ noteObjects w files := by
  obtain ⟨p, _, _, ho, h⟩ := load_truncated hm hp hfn hv hd h0 h1 (readObj_hole hno) given fuel
  refine ⟨fromFileNote w p files, by rw [h]; unfold hailMary; rw [hn], ?_, fun x => ?_⟩
  · rw [fromFileNote_of, ho, ← emplaceAll_append]; exact sorted_emplaceAll _ [] (List.Pairwise.nil)
  · rw [fromFileNote_of, ho, ← emplaceAll_append, mem_emplaceAll hnd (by simp)]
    simp

/-! A program at 0x1000 with a vdso, libc and a build id. -/

def startProgram : Program where
  aux := [(3, 0x1040), (5, 4), (9, 0x1010), (31, 0x5000), (33, 0x7000)]
  phdrs := 0x1040
  headers := [⟨6, 4, 0x40, 0x40, 0x40, 224, 224, 8⟩, ⟨1, 5, 0, 0, 0, 0x800, 0x800, 0x1000⟩, ⟨2, 6, 0x200, 0x200, 0x200, 48, 48, 8⟩, ⟨4, 4, 0x300, 0x300, 0x300, 20, 20, 4⟩]
  base := 0x1000
  notes := [⟨3, [0x47, 0x4e, 0x55, 0], [1, 2, 3, 4]⟩]

def startDyn : List (Nat × Nat) := [(1, 5), (21, 0x2000), (0, 0)]

def startExe : LinkMap := ⟨0x3000, 0x1000, 0x5100, 0x1200, []⟩
def startLibs : List LinkMap := [⟨0x3100, 0x7000, 0x5200, 0x7100, "linux-vdso.so.1".toList⟩, ⟨0x3200, 0x9000, 0x5300, 0x9100, "/lib/libc.so.6".toList⟩]

def startPieces : List (Nat × List Byte) :=
  [(0x1040, startProgram.headers.flatMap Header.enc), (0x1200, startDyn.flatMap encPair), (0x1300, leBytes 4 4 ++ leBytes 4 4 ++ leBytes 4 3 ++ [0x47, 0x4e, 0x55, 0, 1, 2, 3, 4]),
    (0x2000, encRDebug 1 0x3000 0x9999 0 0x9000 [0, 0, 0, 0] [0, 0, 0, 0]), (0x3000, startExe.enc 0x3100 0), (0x3100, (startLibs.headD startExe).enc 0x3200 0x3000),
    (0x3200, (startLibs.getLastD startExe).enc 0 0x3100)]

def startStr (a : Nat) : Res Path :=
  if a = 0x5000 then .ok "/bin/true".toList else if a = 0x5200 then .ok "linux-vdso.so.1".toList else if a = 0x5300 then .ok "/lib/libc.so.6".toList else if a = 0x5100 then .ok [] else .exc

def startVdso : Image := { id := 1, entry := 0, bid := [9] }
def startTrue : Image := { id := 2, entry := 0x10, bid := [1, 2, 3, 4], interp := "/lib/ld.so".toList, dynamics := [(0x200, 48)] }

def startWorld : World where
  mem := startMem startPieces
  str := startStr
  auxv := some (startProgram.aux.flatMap encPair ++ encPair (0, 0) ++ [], true)
  elfAt a _ := if a = 0x7000 then some startVdso else if a = 0x9000 then some { id := 3, entry := 0, bid := [7, 7] } else none
  findId b := if b = [1, 2, 3, 4] then some startTrue else none
  findName _ := none
  self := none
  rdebugSym _ := none
  fileNote := some [("/bin/true".toList, 0x1000, 0), ("/bin/true".toList, 0x2000, 0x1000), ("/lib/libc.so.6".toList, 0x9000, 0)]

/-- The link map is gone. -/
def startCut : World := { startWorld with mem := startMem (startPieces.take 3) }

theorem startProgram_inMemory : startProgram.InMemory startWorld where
  auxv := ⟨0, [], true, rfl, fun _ => rfl⟩
  types := by decide
  phdr := rfl
  phnum := rfl
  somewhere := by decide
  fits := by decide
  headersIn := by decide +kernel
  notesIn := ⟨_, rfl, rfl, by decide +kernel⟩

theorem startProgram_cut : startProgram.InMemory startCut where
  auxv := ⟨0, [], true, rfl, fun _ => rfl⟩
  types := by decide
  phdr := rfl
  phnum := rfl
  somewhere := by decide
  fits := by decide
  headersIn := by decide +kernel
  notesIn := ⟨_, rfl, rfl, by decide +kernel⟩

theorem startProgram_placed : startProgram.Placed := Or.inl ⟨_, rfl, by decide, by decide, by decide⟩

theorem startProgram_debug : startProgram.Debug startWorld.mem 0x2000 := ⟨_, startDyn, rfl, rfl, by decide, by decide +kernel, by decide⟩

theorem startProgram_cutDebug : startProgram.Debug startCut.mem 0x2000 := ⟨_, startDyn, rfl, rfl, by decide, by decide +kernel, by decide⟩

theorem startProgram_linked : Linked startWorld.mem 0x2000 (startExe :: startLibs) :=
  ⟨1, 0x3000, 0x9999, 0, 0x9000, [0, 0, 0, 0], [0, 0, 0, 0], rfl, rfl, by decide, by decide +kernel,
    ⟨rfl, by decide, by decide, by decide, 0x3100, 0, by decide, by decide +kernel, rfl, by decide, by decide, by decide, 0x3200, 0x3000, by decide, by decide +kernel, rfl, by decide, by decide, by decide, 0,
      0x3100, by decide, by decide +kernel, rfl⟩, by decide⟩

theorem startProgram_name (w : World) (h : w.str = startStr) : startProgram.ExecFn w (some "/bin/true".toList) := Or.inr ⟨0x5000, _, rfl, by rw [h]; rfl, rfl⟩

theorem startProgram_vdso (w : World) (h : w.elfAt = startWorld.elfAt) : startProgram.Vdso w (some (0x7000, startVdso)) := Or.inr ⟨0x7000, _, rfl, by decide, by rw [h]; rfl, rfl⟩

/-- Its three objects are found. -/
example : ∃ p, load startWorld 5 (Proc.new none) = some (.ok p) ∧ p.objects.Sorted ∧
    ∀ x, x ∈ p.objects ↔ x ∈ [(0x7000, ⟨"(vdso image)".toList, [9], some startVdso⟩), (0x1000, ⟨"(exe)".toList, [1, 2, 3, 4], some startTrue⟩), (0x9000, ⟨"/lib/libc.so.6".toList, [7, 7], none⟩)] :=
  C74_objects_partial startProgram_inMemory startProgram_placed (startProgram_name _ rfl) (startProgram_vdso _ rfl) startProgram_debug (by decide) (by decide) startProgram_linked (by decide +kernel) none
    (by decide) (by decide +kernel)

example : ∃ p, load startCut 5 (Proc.new none) = some (.ok p) ∧ p.objects.Sorted ∧
    ∀ x, x ∈ p.objects ↔ x ∈ [(0x7000, ⟨"(vdso image)".toList, [9], some startVdso⟩), (0x1000, ⟨"/bin/true".toList, [], none⟩), (0x9000, ⟨"/lib/libc.so.6".toList, [7, 7], none⟩)] :=
  C74_truncated_partial startProgram_cut startProgram_placed (startProgram_name _ rfl) (startProgram_vdso _ rfl) startProgram_cutDebug (by decide) (by decide) ⟨0, by decide, by decide +kernel⟩ rfl none 5
    (by decide +kernel)

/-- A static program. -/
def startStatic : Program where
  aux := [(3, 0x400040), (5, 2)]
  phdrs := 0x400040
  headers := [⟨1, 5, 0, 0x400000, 0, 0x800, 0x800, 0x1000⟩, ⟨4, 4, 0x300, 0x400300, 0, 20, 20, 4⟩]
  base := 0
  notes := [⟨3, [0x47, 0x4e, 0x55, 0], [1, 2, 3, 4]⟩]

def startStaticWorld : World :=
  { startWorld with
    mem := startMem [(0x400040, startStatic.headers.flatMap Header.enc), (0x400300, leBytes 4 4 ++ leBytes 4 4 ++ leBytes 4 3 ++ [0x47, 0x4e, 0x55, 0, 1, 2, 3, 4])]
    auxv := some (startStatic.aux.flatMap encPair ++ encPair (0, 0) ++ [], false)
    findId := fun b => if b = [1, 2, 3, 4] then some { id := 5, entry := 0x400010 } else none }

theorem startStatic_inMemory : startStatic.InMemory startStaticWorld where
  auxv := ⟨0, [], false, rfl, fun h => nomatch h⟩
  types := by decide
  phdr := rfl
  phnum := rfl
  somewhere := by decide
  fits := by decide
  headersIn := by decide +kernel
  notesIn := ⟨_, rfl, rfl, by decide +kernel⟩

example : ∃ p, load startStaticWorld 0 (Proc.new none) = some (.ok p) ∧ p.objects.Sorted ∧ ∀ x, x ∈ p.objects ↔ x ∈ [(0, ⟨[], [], some { id := 5, entry := 0x400010 }⟩)] :=
  C74_static_partial startStatic_inMemory (Or.inr ⟨rfl, rfl⟩) (Or.inl ⟨rfl, rfl⟩) (Or.inl ⟨rfl, rfl⟩) rfl none
    (by intro e he; have h : some ({ id := 5, entry := 0x400010 } : Image) = some e := he; cases h; exact ⟨rfl, rfl⟩) 0

/-- A program that has been moved, has a dynamic section, and no PT_PHDR: its dynamic section is looked for where it was linked to be. If there is nothing, the process cannot be opened at all, whatever else is
known of it. -/
theorem C74_not_moved {P : Program} {w : World} (hm : P.InMemory w) (hno : P.headers.filter (·.type = 6) = []) {h : Header} (hd : P.headers.filter (·.type = 2) = [h]) {n : Nat} (hsz : h.filesz = 16 * (n + 1))
    (hmem : w.mem h.vaddr = none) (given : Option Image) (fuel : Nat) : load w fuel (Proc.new given) = some .exc :=
  load_moved hm hno hd hsz hmem given fuel

/-- Such a program, at 0x1000. -/
def startMoved : Program := { startProgram with headers := startProgram.headers.drop 1, phdrs := 0x1078, aux := [(3, 0x1078), (5, 3), (9, 0x1010), (31, 0x5000), (33, 0x7000)] }

def startMovedWorld : World := { startWorld with auxv := some (startMoved.aux.flatMap encPair ++ encPair (0, 0) ++ [], true) }

theorem startMoved_inMemory : startMoved.InMemory startMovedWorld where
  auxv := ⟨0, [], true, rfl, fun _ => rfl⟩
  types := by decide
  phdr := rfl
  phnum := rfl
  somewhere := by decide
  fits := by decide
  headersIn := by decide +kernel
  notesIn := ⟨_, rfl, rfl, by decide +kernel⟩

/-- Its dynamic section and link map are in memory, where they should be; and still: -/
example : startMoved.Debug startMovedWorld.mem 0x2000 ∧ load startMovedWorld 5 (Proc.new none) = some .exc :=
  ⟨⟨_, startDyn, rfl, rfl, by decide, by decide +kernel, by decide⟩, C74_not_moved startMoved_inMemory rfl rfl (n := 2) rfl (by decide +kernel) none 5⟩

/-- A program that has been moved, and has no DT_DEBUG (a static one that is position independent): it is recorded at 0, not at its base. -/
theorem C74_not_static_base : ∃ (P : Program) (w : World) (e : Image) (p : Proc), P.InMemory w ∧ P.Placed ∧ P.base ≠ 0 ∧ P.executable w none none = some e ∧ load w 0 (Proc.new none) = some (.ok p) ∧
    p.execBase = P.base ∧ p.objects = [(0, ⟨[], e.bid, some e⟩)] := by
  let P : Program := { startProgram with headers := startProgram.headers.set 2 ⟨2, 6, 0x200, 0x200, 0x200, 16, 16, 8⟩, aux := [(3, 0x1040), (5, 4), (9, 0x1010)] }
  let w : World := { startWorld with
    mem := startMem [(0x1040, P.headers.flatMap Header.enc), (0x1200, [(1, 5)].flatMap encPair), (0x1300, leBytes 4 4 ++ leBytes 4 4 ++ leBytes 4 3 ++ [0x47, 0x4e, 0x55, 0, 1, 2, 3, 4])]
    auxv := some (P.aux.flatMap encPair ++ encPair (0, 0) ++ [], true)
    findId := fun b => if b = [1, 2, 3, 4] then some { startTrue with interp := [], dynamics := [(0x200, 16)] } else none }
  refine ⟨P, w, { startTrue with interp := [], dynamics := [(0x200, 16)] }, ⟨0x1010, 0, 0, 0, 0x1000, [(0, ⟨[], [1, 2, 3, 4], some { startTrue with interp := [], dynamics := [(0x200, 16)] }⟩)],
    some { startTrue with interp := [], dynamics := [(0x200, 16)] }, none⟩, ?_, Or.inl ⟨_, rfl, by decide, by decide, by decide⟩, by decide, by decide +kernel, by decide +kernel, rfl, rfl⟩
  exact ⟨⟨0, [], true, rfl, fun _ => rfl⟩, by decide, rfl, rfl, by decide, by decide, by decide +kernel, ⟨_, rfl, rfl, by decide +kernel⟩⟩

/-- A link map that runs in a circle is followed forever. -/
theorem C74_not_circular {P : Program} {w : World} (hm : P.InMemory w) (hp : P.Placed) {fn : Option Path} (hfn : P.ExecFn w fn) {v : Option (Nat × Image)} (hv : P.Vdso w v) {rdebug : Nat}
    (hd : P.Debug w.mem rdebug) (h0 : rdebug ≠ 0) (h1 : rdebug ≠ 2 ^ 64 - 1) {exe : LinkMap} (hload : exe.load < 2 ^ 64) (hname : exe.nameAddr < 2 ^ 64) (haddr : exe.addr ≠ 0 ∧ exe.addr < 2 ^ 64)
    (hr : BytesIn w.mem rdebug (encRDebug 1 exe.addr 0 0 0 [0, 0, 0, 0] [0, 0, 0, 0])) (hb : BytesIn w.mem exe.addr (exe.enc exe.addr 0)) (given : Option Image) :
    ∀ fuel, load w fuel (Proc.new given) = none :=
  load_circular hm hp hfn hv hd h0 h1 hload hname haddr hr hb given

def startCircle : World := { startWorld with mem := startMem (startPieces.take 3 ++ [(0x2000, encRDebug 1 0x3000 0 0 0 [0, 0, 0, 0] [0, 0, 0, 0]), (0x3000, startExe.enc 0x3000 0)]) }

theorem startProgram_circle : startProgram.InMemory startCircle where
  auxv := ⟨0, [], true, rfl, fun _ => rfl⟩
  types := by decide
  phdr := rfl
  phnum := rfl
  somewhere := by decide
  fits := by decide
  headersIn := by decide +kernel
  notesIn := ⟨_, rfl, rfl, by decide +kernel⟩

example : ∀ fuel, load startCircle fuel (Proc.new none) = none :=
  C74_not_circular (rdebug := 0x2000) startProgram_circle startProgram_placed (startProgram_name _ rfl) (startProgram_vdso _ rfl) ⟨_, startDyn, rfl, rfl, by decide, by decide +kernel, by decide⟩ (by decide) (by decide)
    (exe := startExe) (by decide) (by decide) (by decide) (by decide +kernel) (by decide +kernel) none

/-! ## C75: the executable -/

/-- The executable of the process is the one that is given; else that with the build id in its notes; else that of the name the kernel was given; else what the process says. -/
theorem C75_executable_partial {P : Program} {w : World} (hm : P.InMemory w) (hp : P.Placed) {fn : Option Path} (hfn : P.ExecFn w fn) {v : Option (Nat × Image)} (hv : P.Vdso w v) {rdebug : Nat}
    (hd : P.Debug w.mem rdebug) (h0 : rdebug ≠ 0) (h1 : rdebug ≠ 2 ^ 64 - 1) {exe : LinkMap} {libs : List LinkMap} (hl : Linked w.mem rdebug (exe :: libs))
    (hs : ∀ l ∈ libs, l.nameAddr ≠ 0 → w.str l.nameAddr = .ok l.name) (given : Option Image) {fuel : Nat} (hf : libs.length + 1 < fuel) :
    ∃ p, load w fuel (Proc.new given) = some (.ok p) ∧
      (∀ e, given = some e → p.exec = some e) ∧
      (given = none → ∀ n i, P.notes.find? (·.isBuildId) = some n → w.findId n.desc = some i → p.exec = some i) ∧
      (given = none → (∀ n ∈ P.notes, n.isBuildId = true → w.findId n.desc = none) → ∀ f i, fn = some f → f ≠ [] → w.findName f = some i → p.exec = some i) ∧
      (given = none → (∀ n ∈ P.notes, n.isBuildId = true → w.findId n.desc = none) → (∀ f, fn = some f → f = [] ∨ w.findName f = none) → p.exec = w.self) := by
  obtain ⟨p, h, he, _⟩ := load_linked hm hp hfn hv hd h0 h1 hl hs given hf
  have hnote : (∀ n ∈ P.notes, n.isBuildId = true → w.findId n.desc = none) → ((P.notes.find? (·.isBuildId)).bind fun n => w.findId n.desc) = none := by
    intro hn
    cases hf : P.notes.find? (·.isBuildId) with
    | none => rfl
    | some n => exact hn n (List.mem_of_find?_eq_some hf) (by simpa using List.find?_some hf)
  refine ⟨p, h, ?_, ?_, ?_, ?_⟩
  · rintro e rfl; rw [he]; rfl
  · rintro rfl n i hn hi; rw [he]; unfold Program.executable; rw [hn, Option.bind_some, hi]; rfl
  · rintro rfl hn f i rfl hne hi; rw [he]; unfold Program.executable; rw [hnote hn]; simp [Option.filter, hne, hi]
  · rintro rfl hn hfn; rw [he]; unfold Program.executable; rw [hnote hn]
    cases fn with
    | none => simp
    | some f =>
      rcases hfn f rfl with h | h
      · simp [Option.filter, h]
      · by_cases hz : f = [] <;> simp [Option.filter, hz, h]

example : ∃ p, load startWorld 5 (Proc.new none) = some (.ok p) ∧ p.exec = some startTrue := by
  obtain ⟨p, h, _, h2, _⟩ := C75_executable_partial startProgram_inMemory startProgram_placed (startProgram_name _ rfl) (startProgram_vdso _ rfl) startProgram_debug (by decide) (by decide) startProgram_linked
    (by decide +kernel) none (fuel := 5) (by decide)
  exact ⟨p, h, h2 rfl _ _ rfl rfl⟩

/-- Only the first note of a segment is looked at: with another one before it, the build id is not found. -/
theorem C75_not_later_note : ∃ (P : Program) (w : World) (note : NoteRec) (i : Image) (p : Proc), P.InMemory w ∧ P.Placed ∧ P.notes.length = 1 ∧ note.isBuildId = true ∧ w.findId note.desc = some i ∧
    NoteIn w.mem (P.base + 0x300 + 20) note ∧ load w 5 (Proc.new none) = some (.ok p) ∧ p.exec = none := by
  let P : Program := { startProgram with notes := [⟨1, [0x47, 0x4e, 0x55, 0], [0, 0, 0, 0]⟩], headers := startProgram.headers.set 3 ⟨4, 4, 0x300, 0x300, 0x300, 40, 40, 4⟩ }
  let w : World := { startWorld with mem := startMem ([(0x1040, P.headers.flatMap Header.enc), (0x1300, leBytes 4 4 ++ leBytes 4 4 ++ leBytes 4 1 ++ [0x47, 0x4e, 0x55, 0, 0, 0, 0, 0] ++
    leBytes 4 4 ++ leBytes 4 4 ++ leBytes 4 3 ++ [0x47, 0x4e, 0x55, 0, 1, 2, 3, 4])] ++ startPieces.drop 1) }
  refine ⟨P, w, ⟨3, [0x47, 0x4e, 0x55, 0], [1, 2, 3, 4]⟩, startTrue, ⟨0x1010, 0x2000, 0, 0x7000, 0x1000,
    [(0x7000, ⟨"(vdso image)".toList, [9], some startVdso⟩), (0x9000, ⟨"/lib/libc.so.6".toList, [7, 7], none⟩)], none, some startVdso⟩,
    ?_, Or.inl ⟨_, rfl, by decide, by decide, by decide⟩, rfl, rfl, rfl, by decide +kernel, by decide +kernel, rfl⟩
  exact ⟨⟨0, [], true, rfl, fun _ => rfl⟩, by decide, rfl, rfl, by decide, by decide, by decide +kernel, ⟨_, rfl, rfl, by decide +kernel⟩⟩

end Pstack.Props
