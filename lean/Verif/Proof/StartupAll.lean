import Verif.Proof.StartupLoad
namespace Pstack.Startup
open Pstack.Spec

/-! ### All of it -/

theorem libObjects_eq {w : World} {v : Option (Nat × Image)} (hv : ∀ x, v = some x → x.1 ≠ 0) (ls : List LinkMap) : libObjects w ((v.map (·.1)).getD 0) ls = libraries w v ls := by
  unfold libObjects libraries
  congr 1
  refine List.filter_congr fun l _ => ?_
  cases v with
  | none => simp
  | some x =>
    have := hv x rfl
    have e : (x.1 = l.load) ↔ (l.load = x.1) := ⟨Eq.symm, Eq.symm⟩
    simp only [Option.map_some, Option.getD_some, Option.some.injEq, ne_eq, this, not_false_eq_true, true_and, not_or, e]
    by_cases a : l.load = x.1 <;> by_cases b : l.nameAddr = 0 <;> by_cases c : l.name = [] <;> simp [a, b, c]

theorem vdso_nonzero {P : Program} {w : World} {v : Option (Nat × Image)} (h : P.Vdso w v) : ∀ x, v = some x → x.1 ≠ 0 := by
  rintro x rfl
  rcases h with ⟨_, h⟩ | ⟨a, i, _, h0, _, h⟩
  · cases h
  · cases h; exact h0

theorem minus_back {v b W : Nat} (hb : b < W) (hv : v < W) : ((v + b) % W + W - v) % W = b := by
  by_cases h : v + b < W
  · rw [Nat.mod_eq_of_lt h, show v + b + W - v = b + W by omega, Nat.add_mod_right, Nat.mod_eq_of_lt hb]
  · rw [show v + b = (v + b - W) + W by omega, Nat.add_mod_right, Nat.mod_eq_of_lt (by omega : v + b - W < W), show v + b - W + W - v = b by omega, Nat.mod_eq_of_lt hb]

theorem base_of {P : Program} (h : P.Placed) : (P.headers.filter (·.type = 6)).foldl (fun _ x => (P.phdrs + W64 - x.vaddr) % W64) 0 = P.base := by
  rcases h with ⟨h, hf, e, hb, hv⟩ | ⟨hf, e⟩
  · rw [hf, List.foldl_cons, List.foldl_nil, ← e, W64_eq]
    exact minus_back hb hv
  · rw [hf, e]; rfl

theorem flat_len (l : List (Nat × Nat)) : (l.flatMap encPair).length = 16 * l.length := by
  induction l with
  | nil => rfl
  | cons e l ih => rw [List.flatMap_cons, List.length_append, ih, encPair_len, List.length_cons]; omega

theorem chooseExec_rest (w : World) (fn : Path) (p : Proc) : ((chooseExec w fn p).vdsoBase = p.vdsoBase ∧ (chooseExec w fn p).vdso = p.vdso) ∧ (chooseExec w fn p).objects = p.objects ∧
    (chooseExec w fn p).dtDebug = p.dtDebug ∧ (chooseExec w fn p).execBase = p.execBase := by
  unfold chooseExec
  by_cases h : p.exec = none ∧ fn ≠ []
  · simp only [if_pos h]
    split <;> exact ⟨⟨rfl, rfl⟩, rfl, rfl, rfl⟩
  · simp only [if_neg h]
    split <;> exact ⟨⟨rfl, rfl⟩, rfl, rfl, rfl⟩

theorem chooseExec_exec (w : World) (fn : Option Path) (p : Proc) : (chooseExec w (fn.getD []) p).exec = (p.exec <|> ((fn.filter (· ≠ [])).bind w.findName) <|> w.self) := by
  unfold chooseExec
  cases he : p.exec with
  | some e =>
    simp [he]
  | none =>
    cases fn with
    | none => simp [he]
    | some s =>
      by_cases hs : s = []
      · simp [he, hs, Option.filter]
      · simp only [Option.getD_some, true_and, ne_eq, hs, not_false_eq_true, Option.filter, decide_true, if_true, Option.bind_some]
        cases hn : w.findName s <;> simp

theorem proc_same {p : Proc} {b d : Nat} {e : Option Image} (h1 : p.execBase = b) (h2 : p.dtDebug = d) (h3 : p.exec = e) : { p with execBase := b, dtDebug := d, exec := e } = p := by
  subst h1 h2 h3; rfl

theorem processAUXV_of {P : Program} {w : World} (hm : P.InMemory w) (hp : P.Placed) {fn : Option Path} (hfn : P.ExecFn w fn) {v : Option (Nat × Image)} (hv : P.Vdso w v) {dt : Nat}
    (hd : P.Debug w.mem dt ∨ P.headers.filter (·.type = 2) = [] ∧ dt = 0) (given : Option Image) :
    ∃ a p, w.auxv = some a ∧ processAUXV w a (Proc.new given) = .ok p ∧ p.exec = P.executable w given fn ∧ p.vdsoBase = (v.map (·.1)).getD 0 ∧ p.objects = emplaceAll (vdsoObject v) [] ∧
      p.vdso = v.map (·.2) ∧ p.dtDebug = dt ∧ p.execBase = P.base := by
  obtain ⟨z, rest, sized, ha, hs⟩ := hm.auxv
  refine ⟨(P.aux.flatMap encPair ++ encPair (0, z) ++ rest, sized), ?_⟩
  generalize hA : foldAux w P.aux { proc := Proc.new given } = A
  have h3 : A.phOff = P.phdrs := by rw [← hA, aux_phOff]; exact part_is (g := fun v _ => v) hm.phdr
  have h5 : A.phNum = P.headers.length := by rw [← hA, aux_phNum]; exact part_is (g := fun v _ => v) hm.phnum
  have h31 : A.exeName = fn.getD [] := by
    rw [← hA, aux_exeName]
    rcases hfn with ⟨hf, e⟩ | ⟨a, s, hf, hstr, e⟩
    · rw [hf, e]; rfl
    · rw [show P.aux.filter (·.1 = 31) = [(31, a)] from hf, e]
      simp only [List.foldl_cons, List.foldl_nil, hstr, Option.getD_some]
  have h33 : A.proc.vdsoPart = ((v.map (·.1)).getD 0, emplaceAll (vdsoObject v) [], v.map (·.2)) := by
    rw [← hA, aux_vdso]
    rcases hv with ⟨hf, e⟩ | ⟨a, i, hf, _, hi, e⟩
    · rw [hf, e]; rfl
    · rw [show P.aux.filter (·.1 = 33) = [(33, a)] from hf, e]
      simp only [List.foldl_cons, List.foldl_nil, setVdso, hi]
      rfl
  obtain ⟨r1, r2, r3⟩ := aux_rest w P.aux { proc := Proc.new given }
  rw [hA] at r1 r2 r3
  have r1 : A.proc.exec = given := r1
  have r2 : A.proc.dtDebug = 0 := r2
  have r3 : A.proc.execBase = 0 := r3
  generalize hH : P.headers.foldl (fun h x => headerEntry P.phdrs h x.enc) { execBase := 0 } = H
  have hbase : H.execBase = P.base := by rw [← hH, headers_base hm.fits]; exact base_of hp
  obtain ⟨hs4, hn1, hn2, hn3⟩ := hm.notesIn
  have hnotes : H.notes = hs4.map (·.vaddr) := by rw [← hH, headers_notes hm.fits, hn1]; rfl
  have hdyn : headersDebug w.mem A.proc.dtDebug H = .ok dt := by
    unfold headersDebug
    have e : H.dynamic = (P.headers.filter (·.type = 2)).foldl (fun _ x => some (x.vaddr, x.filesz)) none := by rw [← hH, headers_dynamic hm.fits]
    rcases hd with ⟨h, dyn, hf, hsz, h64, hb, hone⟩ | ⟨hf, e0⟩
    · rw [e, hf]
      simp only [List.foldl_cons, List.foldl_nil]
      rw [if_pos r2, hbase, hsz, extractDtDebug_of h64 hb, ← List.head?_filter, hone]
      rfl
    · rw [e, hf, e0, r2]; rfl
  have hloop : auxLoop w sized ((P.aux.flatMap encPair ++ encPair (0, z) ++ rest).length / 16 + 1) (P.aux.flatMap encPair ++ encPair (0, z) ++ rest) { proc := Proc.new given } = .ok A := by
    rw [auxLoop_of w sized P.aux z rest hm.types _ _ ?_, hA]
    have : (P.aux.flatMap encPair).length = 16 * P.aux.length := flat_len P.aux
    simp only [List.length_append, this, encPair_len]
    omega
  have hsize : ¬ (sized = true ∧ (P.aux.flatMap encPair ++ encPair (0, z) ++ rest).length % 16 ≠ 0) := by
    rintro ⟨h1, h2⟩
    have e1 := hs h1
    have : (P.aux.flatMap encPair).length = 16 * P.aux.length := flat_len P.aux
    simp only [List.length_append, this, encPair_len] at h2
    omega
  have hh : headerLoop w.mem A.phOff P.headers.length 0 { execBase := A.proc.execBase } = H := by
    rw [h3, r3, headerLoop_of P.headers 0 _ (by simpa using hm.headersIn), hH]
  have huse : useHeaders w A = .ok { A.proc with execBase := P.base, dtDebug := dt, exec := given <|> ((P.notes.find? (·.isBuildId)).bind fun n => w.findId n.desc) } := by
    unfold useHeaders
    by_cases h0 : P.headers.length = 0
    · have hnil : P.headers = [] := List.eq_nil_of_length_eq_zero h0
      rw [hnil] at hd
      have hb : P.base = 0 := by rw [← base_of hp, hnil]; rfl
      have hdt : dt = 0 := by
        rcases hd with ⟨h, _, hf, _⟩ | ⟨_, e⟩
        · rw [hnil] at hf; cases hf
        · exact e
      have hno : P.notes = [] := by
        rw [hnil] at hn1
        subst hn1
        exact List.eq_nil_of_length_eq_zero hn2.symm
      rw [if_neg (by rw [h5]; exact fun h => h.2 h0), hb, hdt, hno]
      exact congrArg Res.ok (proc_same r3 r2 (by rw [r1]; cases given <;> rfl)).symm
    · rw [if_pos ⟨by rw [h3]; exact hm.somewhere.1, by rw [h5]; exact h0⟩, h5, W64_eq, Nat.mod_eq_of_lt hm.somewhere.2.2, elements_of (by decide), Res.bind_ok]
      simp only [hh]
      rw [hdyn, Res.bind_ok, hbase, hnotes, r1]
      cases given with
      | some g => simp
      | none =>
        simp only
        rw [noteLoop_of hs4 P.notes hn2 hn3, Res.bind_ok]
        rfl
  have hvp : A.proc.vdsoBase = (v.map (·.1)).getD 0 ∧ A.proc.objects = emplaceAll (vdsoObject v) [] ∧ A.proc.vdso = v.map (·.2) := by
    simp only [Proc.vdsoPart, Prod.mk.injEq] at h33
    exact h33
  refine ⟨chooseExec w A.exeName { A.proc with execBase := P.base, dtDebug := dt, exec := given <|> ((P.notes.find? (·.isBuildId)).bind fun n => w.findId n.desc) }, ha, ?_, ?_⟩
  · unfold processAUXV
    rw [if_neg hsize, hloop, Res.bind_ok, huse, Res.bind_ok]
    rfl
  · obtain ⟨k1, k2, k3, k4⟩ := chooseExec_rest w A.exeName { A.proc with execBase := P.base, dtDebug := dt, exec := given <|> ((P.notes.find? (·.isBuildId)).bind fun n => w.findId n.desc) }
    refine ⟨?_, ?_, ?_, ?_, ?_, ?_⟩
    · rw [h31, chooseExec_exec]
      unfold Program.executable
      cases given <;> simp
    · rw [k1.1]; exact hvp.1
    · rw [k2]; exact hvp.2.1
    · rw [k1.2]; exact hvp.2.2
    · exact k3
    · exact k4

theorem findRDebugAddr_known {w : World} {p : Proc} (h : p.dtDebug ≠ 0) : findRDebugAddr w p = .ok p := by
  have e : execDebug w.mem p = .ok p.dtDebug := by
    unfold execDebug
    cases p.exec with
    | none => rfl
    | some e => simp only; rw [if_neg h]
  unfold findRDebugAddr
  rw [e, Res.bind_ok]
  obtain ⟨q1, q2, q3, q4, q5, q6, q7, q8⟩ := p
  cases q7 with
  | none => rfl
  | some e => simp only; rw [if_neg (fun hh => h hh.1)]; rfl

theorem mapEntry_exe {w : World} {l : LinkMap} {next prev : Nat} (h1 : l.load < 2 ^ 64) (h2 : l.nameAddr < 2 ^ 64) (h3 : next < 2 ^ 64) (p : Proc) :
    ∃ b, mapEntry w l.addr l.addr (l.enc next prev) p = .ok { p with execBase := b, objects := emplaceAll (exeObject "(exe)" l.load p.exec) p.objects } := by
  obtain ⟨e1, _, _⟩ := field_link (prev := prev) h1 h2 h3
  unfold mapEntry
  simp only [e1]
  rw [if_pos trivial]
  cases he : p.exec with
  | none => exact ⟨p.execBase, by cases p; simp only at he; subst he; rfl⟩
  | some e => exact ⟨if p.execBase = 0 then (p.entry + W64 - e.entry) % W64 else p.execBase, by simp [addElfObject, emplaceAll, exeObject]⟩

theorem rdebug_map {version map brk state ldbase : Nat} {pad1 pad2 : List Byte} (hp1 : pad1.length = 4) (hm : map < 2 ^ 64) : field (encRDebug version map brk state ldbase pad1 pad2) 8 8 = map := by
  have := field_mid (a := leBytes 4 version ++ pad1) (b := leBytes 8 brk ++ (leBytes 4 state ++ (pad2 ++ leBytes 8 ldbase))) (n := 8) (v := map) (off := 8) (by simp [leBytes_len, hp1]) (by omega)
  simpa [encRDebug] using this

theorem loadSharedObjects_of {w : World} {p : Proc} {exe : LinkMap} {libs : List LinkMap} (hl : Linked w.mem p.dtDebug (exe :: libs)) (hs : ∀ l ∈ libs, l.nameAddr ≠ 0 → w.str l.nameAddr = .ok l.name)
    {fuel : Nat} (hf : libs.length + 1 < fuel) :
    ∃ b, loadSharedObjects w fuel p = some ({ p with execBase := b, objects := emplaceAll (libObjects w p.vdsoBase libs) (emplaceAll (exeObject "(exe)" exe.load p.exec) p.objects) }, true) := by
  obtain ⟨version, map, brk, state, ldbase, pad1, pad2, hp1, hp2, hm, hb, hfrom, hn⟩ := hl
  have hfield := rdebug_map (version := version) (brk := brk) (state := state) (ldbase := ldbase) (pad2 := pad2) hp1 hm
  unfold loadSharedObjects
  rw [readObj_of hb (by simp [encRDebug, leBytes_len, hp1, hp2])]
  simp only
  rw [hfield]
  obtain ⟨e, h0, h1, h2, next, prev, h3, hb1, hr⟩ := hfrom
  subst e
  obtain ⟨b, hexe⟩ := mapEntry_exe (w := w) (prev := prev) h1 h2 h3 p
  refine ⟨b, ?_⟩
  cases fuel with
  | zero => omega
  | succ fuel =>
    rw [mapsLoop, if_neg h0, readObj_of hb1 (by simp [LinkMap.enc, leBytes_len])]
    simp only
    rw [hexe]
    simp only
    rw [(field_link (prev := prev) h1 h2 h3).2.2, mapsLoop_libs libs fuel next _ (by omega) hr (fun l hl e => ?_) hs, libs_fold]
    rw [List.map_cons, List.nodup_cons] at hn
    exact hn.1 (List.mem_map.2 ⟨l, hl, e⟩)

theorem load_linked {P : Program} {w : World} (hm : P.InMemory w) (hp : P.Placed) {fn : Option Path} (hfn : P.ExecFn w fn) {v : Option (Nat × Image)} (hv : P.Vdso w v) {rdebug : Nat}
    (hd : P.Debug w.mem rdebug) (h0 : rdebug ≠ 0) (h1 : rdebug ≠ 2 ^ 64 - 1) {exe : LinkMap} {libs : List LinkMap} (hl : Linked w.mem rdebug (exe :: libs))
    (hs : ∀ l ∈ libs, l.nameAddr ≠ 0 → w.str l.nameAddr = .ok l.name) (given : Option Image) {fuel : Nat} (hf : libs.length + 1 < fuel) :
    ∃ p, load w fuel (Proc.new given) = some (.ok p) ∧ p.exec = P.executable w given fn ∧ p.vdso = v.map (·.2) ∧
      p.objects = emplaceAll (vdsoObject v ++ exeObject "(exe)" exe.load (P.executable w given fn) ++ libraries w v libs) [] := by
  obtain ⟨a, p, ha, hp1, he, hvb, ho, hvd, hdt, hbase⟩ := processAUXV_of hm hp hfn hv (Or.inl hd) given
  obtain ⟨b, hload⟩ := loadSharedObjects_of (w := w) (p := p) (by rw [hdt]; exact hl) hs hf
  have key : load w fuel (Proc.new given) = some (.ok { p with execBase := b, objects := emplaceAll (libObjects w p.vdsoBase libs) (emplaceAll (exeObject "(exe)" exe.load p.exec) p.objects) }) := by
    unfold load loadAuxv
    rw [ha]
    simp only
    rw [hp1]
    simp only
    rw [findRDebugAddr_known (by rw [hdt]; exact h0)]
    simp only
    rw [if_neg (by rw [hdt, W64_eq]; exact fun h => h.elim h0 h1), hload]
  refine ⟨_, key, he, hvd, ?_⟩
  simp only
  rw [hvb, libObjects_eq (vdso_nonzero hv), ho, he, emplaceAll_append, emplaceAll_append]

theorem findRDebugAddr_static {w : World} {p : Proc} (h : p.dtDebug = 0) (he : ∀ e, p.exec = some e → e.dynamics = [] ∧ e.interp = []) : findRDebugAddr w p = .ok p := by
  obtain ⟨q1, q2, q3, q4, q5, q6, q7, q8⟩ := p
  simp only at h he
  subst h
  cases q7 with
  | none => rfl
  | some e =>
    obtain ⟨e1, e2⟩ := he e rfl
    have e : execDebug w.mem ⟨q1, 0, q3, q4, q5, q6, some e, q8⟩ = .ok 0 := by
      unfold execDebug
      simp only [if_true, e1, execDynamics]
    unfold findRDebugAddr
    rw [e, Res.bind_ok]
    simp only
    rw [if_neg (fun h => h.2.2 e2)]
    rfl

/-- A program that is not linked dynamically. -/
theorem load_static {P : Program} {w : World} (hm : P.InMemory w) (hp : P.Placed) {fn : Option Path} (hfn : P.ExecFn w fn) {v : Option (Nat × Image)} (hv : P.Vdso w v)
    (hd : P.headers.filter (·.type = 2) = []) (given : Option Image) (he : ∀ e, P.executable w given fn = some e → e.dynamics = [] ∧ e.interp = []) (fuel : Nat) :
    ∃ p, load w fuel (Proc.new given) = some (.ok p) ∧ p.exec = P.executable w given fn ∧ p.vdso = v.map (·.2) ∧
      p.objects = emplaceAll (vdsoObject v ++ exeObject "" 0 (P.executable w given fn)) [] := by
  obtain ⟨a, p, ha, hp1, hex, hvb, ho, hvd, hdt, hbase⟩ := processAUXV_of hm hp hfn hv (Or.inr ⟨hd, rfl⟩) given
  have hr : findRDebugAddr w p = .ok p := findRDebugAddr_static hdt (by rw [hex]; exact he)
  have key : load w fuel (Proc.new given) = some (.ok (match p.exec with
      | some e => addElfObject w p [] (some e) 0
      | none => p)) := by
    unfold load loadAuxv
    rw [ha]
    simp only
    rw [hp1]
    simp only
    rw [hr]
    simp only
    rw [if_pos (Or.inl hdt)]
    cases p.exec <;> rfl
  refine ⟨_, key, ?_⟩
  rw [← hex, emplaceAll_append, ← ho]
  cases hpe : p.exec with
  | none => exact ⟨hpe, hvd, rfl⟩
  | some e => exact ⟨hpe, hvd, rfl⟩

/-- One whose link map is not to be had. -/
theorem load_truncated {P : Program} {w : World} (hm : P.InMemory w) (hp : P.Placed) {fn : Option Path} (hfn : P.ExecFn w fn) {v : Option (Nat × Image)} (hv : P.Vdso w v) {rdebug : Nat}
    (hd : P.Debug w.mem rdebug) (h0 : rdebug ≠ 0) (h1 : rdebug ≠ 2 ^ 64 - 1) (hno : readObj w.mem rdebug 40 = .exc) (given : Option Image) (fuel : Nat) :
    ∃ p, p.exec = P.executable w given fn ∧ p.vdso = v.map (·.2) ∧ p.objects = emplaceAll (vdsoObject v) [] ∧ load w fuel (Proc.new given) = some (hailMary w p) := by
  obtain ⟨a, p, ha, hp1, hex, hvb, ho, hvd, hdt, hbase⟩ := processAUXV_of hm hp hfn hv (Or.inl hd) given
  refine ⟨p, hex, hvd, ho, ?_⟩
  unfold load loadAuxv
  rw [ha]
  simp only
  rw [hp1]
  simp only
  rw [findRDebugAddr_known (by rw [hdt]; exact h0)]
  simp only
  rw [if_neg (by rw [hdt, W64_eq]; exact fun h => h.elim h0 h1)]
  unfold loadSharedObjects
  rw [hdt, hno]

theorem fromFileNote_of (w : World) (l : List (Path × Nat × Nat)) : ∀ p : Proc, fromFileNote w p l = { p with objects := emplaceAll (noteObjects w l) p.objects } := by
  induction l with
  | nil => intro p; rfl
  | cons x l ih =>
    intro p
    have h : fromFileNote w p (x :: l) = fromFileNote w (if x.2.2 = 0 then addElfObject w p x.1 none x.2.1 else p) l := rfl
    rw [h, ih]
    unfold noteObjects
    by_cases h0 : x.2.2 = 0
    · rw [if_pos h0, List.filter_cons_of_pos (by simpa using h0)]
      rw [addElfObject_none]
      rfl
    · rw [if_neg h0, List.filter_cons_of_neg (by simpa using h0)]

theorem bytesAt_hole {mem : Nat → Option Byte} : ∀ {n a : Nat}, (∃ i, i < n ∧ mem ((a + i) % W64) = none) → bytesAt mem a n = none := by
  intro n
  induction n with
  | zero => rintro a ⟨i, hi, _⟩; omega
  | succ n ih =>
    rintro a ⟨i, hi, hn⟩
    unfold bytesAt
    cases i with
    | zero => rw [Nat.add_zero] at hn; rw [hn]; rfl
    | succ i =>
      rw [ih ⟨i, by omega, by rw [← hn]; congr 2; omega⟩]
      cases mem (a % W64) <;> rfl

theorem readObj_hole {mem : Nat → Option Byte} {a n : Nat} (h : ∃ i, i < n ∧ mem ((a + i) % 2 ^ 64) = none) : readObj mem a n = .exc := by
  unfold readObj
  rw [bytesAt_hole (by rw [W64_eq]; exact h)]

theorem load_moved {P : Program} {w : World} (hm : P.InMemory w) (hno : P.headers.filter (·.type = 6) = []) {h : Header} (hd : P.headers.filter (·.type = 2) = [h]) {n : Nat} (hsz : h.filesz = 16 * (n + 1))
    (hmem : w.mem h.vaddr = none) (given : Option Image) (fuel : Nat) : load w fuel (Proc.new given) = some .exc := by
  obtain ⟨z, rest, sized, ha, hs⟩ := hm.auxv
  have hv64 : h.vaddr < W64 := by
    have : h ∈ P.headers.filter (·.type = 2) := by rw [hd]; simp
    exact (hm.fits h (List.mem_filter.1 this).1).2.1
  have hne : P.headers.length ≠ 0 := by
    intro e
    rw [List.eq_nil_of_length_eq_zero e] at hd
    cases hd
  generalize hA : foldAux w P.aux { proc := Proc.new given } = A
  have h3 : A.phOff = P.phdrs := by rw [← hA, aux_phOff]; exact part_is (g := fun v _ => v) hm.phdr
  have h5 : A.phNum = P.headers.length := by rw [← hA, aux_phNum]; exact part_is (g := fun v _ => v) hm.phnum
  obtain ⟨r1, r2, r3⟩ := aux_rest w P.aux { proc := Proc.new given }
  rw [hA] at r1 r2 r3
  have r2 : A.proc.dtDebug = 0 := r2
  have r3 : A.proc.execBase = 0 := r3
  generalize hH : P.headers.foldl (fun h x => headerEntry P.phdrs h x.enc) { execBase := 0 } = H
  have hbase : H.execBase = 0 := by rw [← hH, headers_base hm.fits, hno]; rfl
  have hdyn : headersDebug w.mem A.proc.dtDebug H = .exc := by
    unfold headersDebug
    have e : H.dynamic = some (h.vaddr, h.filesz) := by rw [← hH, headers_dynamic hm.fits, hd]; rfl
    rw [e]
    simp only
    rw [if_pos r2, hbase, hsz]
    unfold extractDtDebug
    rw [elements_of (by decide), Res.bind_ok, Nat.add_zero, dynLoop, readObj_hole ⟨0, by decide, by
      rw [Nat.mul_zero, Nat.add_zero, ← W64_eq, Nat.mod_mod, Nat.mod_eq_of_lt hv64]; exact hmem⟩]
    rfl
  have hloop : auxLoop w sized ((P.aux.flatMap encPair ++ encPair (0, z) ++ rest).length / 16 + 1) (P.aux.flatMap encPair ++ encPair (0, z) ++ rest) { proc := Proc.new given } = .ok A := by
    rw [auxLoop_of w sized P.aux z rest hm.types _ _ ?_, hA]
    have : (P.aux.flatMap encPair).length = 16 * P.aux.length := flat_len P.aux
    simp only [List.length_append, this, encPair_len]
    omega
  have hsize : ¬ (sized = true ∧ (P.aux.flatMap encPair ++ encPair (0, z) ++ rest).length % 16 ≠ 0) := by
    rintro ⟨h1, h2⟩
    have e1 := hs h1
    have : (P.aux.flatMap encPair).length = 16 * P.aux.length := flat_len P.aux
    simp only [List.length_append, this, encPair_len] at h2
    omega
  have hh : headerLoop w.mem A.phOff P.headers.length 0 { execBase := A.proc.execBase } = H := by
    rw [h3, r3, headerLoop_of P.headers 0 _ (by simpa using hm.headersIn), hH]
  have huse : useHeaders w A = .exc := by
    unfold useHeaders
    rw [if_pos ⟨by rw [h3]; exact hm.somewhere.1, by rw [h5]; exact hne⟩, h5, W64_eq, Nat.mod_eq_of_lt hm.somewhere.2.2, elements_of (by decide), Res.bind_ok]
    simp only [hh]
    rw [hdyn]
    rfl
  have hp : processAUXV w (P.aux.flatMap encPair ++ encPair (0, z) ++ rest, sized) (Proc.new given) = .exc := by
    unfold processAUXV
    rw [if_neg hsize, hloop, Res.bind_ok, huse]
    rfl
  unfold load loadAuxv
  rw [ha]
  simp only
  rw [hp]

theorem mapsLoop_circle {w : World} {exe : LinkMap} (hload : exe.load < 2 ^ 64) (hname : exe.nameAddr < 2 ^ 64) (haddr : exe.addr ≠ 0 ∧ exe.addr < 2 ^ 64) (hb : BytesIn w.mem exe.addr (exe.enc exe.addr 0)) :
    ∀ n p, mapsLoop w exe.addr n exe.addr p = none := by
  intro n
  induction n with
  | zero => intro p; rfl
  | succ n ih =>
    intro p
    obtain ⟨b, hexe⟩ := mapEntry_exe (w := w) (prev := 0) hload hname haddr.2 p
    rw [mapsLoop, if_neg haddr.1, readObj_of hb (by simp [LinkMap.enc, leBytes_len])]
    simp only
    rw [hexe]
    simp only
    rw [(field_link (prev := 0) hload hname haddr.2).2.2]
    exact ih _

theorem load_circular {P : Program} {w : World} (hm : P.InMemory w) (hp : P.Placed) {fn : Option Path} (hfn : P.ExecFn w fn) {v : Option (Nat × Image)} (hv : P.Vdso w v) {rdebug : Nat}
    (hd : P.Debug w.mem rdebug) (h0 : rdebug ≠ 0) (h1 : rdebug ≠ 2 ^ 64 - 1) {exe : LinkMap} (hload : exe.load < 2 ^ 64) (hname : exe.nameAddr < 2 ^ 64) (haddr : exe.addr ≠ 0 ∧ exe.addr < 2 ^ 64)
    (hr : BytesIn w.mem rdebug (encRDebug 1 exe.addr 0 0 0 [0, 0, 0, 0] [0, 0, 0, 0])) (hb : BytesIn w.mem exe.addr (exe.enc exe.addr 0)) (given : Option Image) :
    ∀ fuel, load w fuel (Proc.new given) = none := by
  intro fuel
  obtain ⟨a, p, ha, hp1, hex, hvb, ho, hvd, hdt, hbase⟩ := processAUXV_of hm hp hfn hv (Or.inl hd) given
  have hfield := rdebug_map (version := 1) (brk := 0) (state := 0) (ldbase := 0) (pad1 := [0, 0, 0, 0]) (pad2 := [0, 0, 0, 0]) rfl haddr.2
  unfold load loadAuxv
  rw [ha]
  simp only
  rw [hp1]
  simp only
  rw [findRDebugAddr_known (by rw [hdt]; exact h0)]
  simp only
  rw [if_neg (by rw [hdt, W64_eq]; exact fun h => h.elim h0 h1)]
  unfold loadSharedObjects
  rw [hdt, readObj_of hr (by simp [encRDebug, leBytes_len])]
  simp only
  rw [hfield, mapsLoop_circle hload hname haddr hb]

end Pstack.Startup
