import Verif.Model.DumpSyms
import Verif.Spec.DumpSyms
import Verif.Proof.DumpCfa
import Verif.Props.Segments
import Verif.Props.Reader
/-
C100: the dump of symbols and relocations.
-/
namespace Pstack.Props
open Pstack.Reader Pstack.Elf Pstack.Spec Pstack.Json Pstack.DumpCfa Pstack.DumpSyms
open Pstack.Dwarf (leBytes_length leNat_leBytes)

/-- The tree of a symbol, with strings as code points. -/
def symCodes (cs : List Nat) (b ty : String) (s : Sym) : Tree (List Nat) :=
  .obj true [(charCodes "name", .str cs), (charCodes "value", .int s.value), (charCodes "size", .int s.size),
    (charCodes "info", .int s.info), (charCodes "binding", .str (charCodes b)), (charCodes "type", .str (charCodes ty)),
    (charCodes "other", .int s.other), (charCodes "shndx", .int s.shndx)]

theorem utf8s_nonzero {cs : List Nat} (h : ∀ c ∈ cs, Plain c) : ∀ b ∈ utf8s cs, b ≠ 0#8 := by
  intro b hb
  simp only [utf8s, List.mem_flatten, List.mem_map] at hb
  obtain ⟨l, ⟨c, hc, rfl⟩, hb⟩ := hb
  obtain ⟨-, h2, h3⟩ := h c hc
  intro hz
  subst hz
  have hz : ∀ k, k < 256 → (0#8 = BitVec.ofNat 8 k) → k = 0 := by
    intro k hk he
    have := congrArg BitVec.toNat he
    rw [BitVec.toNat_ofNat, BitVec.toNat_ofNat] at this
    omega
  unfold utf8 at hb
  split at hb
  · simp only [List.mem_singleton] at hb
    have := hz _ (by omega) hb
    omega
  · split at hb
    · simp only [List.mem_cons, List.not_mem_nil, or_false] at hb
      rcases hb with hb | hb <;> have := hz _ (by omega) hb <;> omega
    · simp only [List.mem_cons, List.not_mem_nil, or_false] at hb
      rcases hb with hb | hb | hb <;> have := hz _ (by omega) hb <;> omega

theorem binding_plain : ∀ i : Fin 16, ∃ b, nameIn bindingNames i.1 = .ok b ∧ bindingNames[i.1]? = some b ∧ PlainText b := by
  intro i
  have : ∀ i : Fin 16, PlainText (bindingNames[i.1]?.getD "") ∧ bindingNames[i.1]?.isSome := by decide +kernel
  obtain ⟨h1, h2⟩ := this i
  obtain ⟨b, hb⟩ := Option.isSome_iff_exists.1 h2
  rw [hb] at h1
  exact ⟨b, by rw [nameIn, hb], hb, h1⟩

theorem type_plain : ∀ i : Fin 16, ∃ b, nameIn typeNames i.1 = .ok b ∧ typeNames[i.1]? = some b ∧ PlainText b := by
  intro i
  have : ∀ i : Fin 16, PlainText (typeNames[i.1]?.getD "") ∧ typeNames[i.1]?.isSome := by decide +kernel
  obtain ⟨h1, h2⟩ := this i
  obtain ⟨b, hb⟩ := Option.isSome_iff_exists.1 h2
  rw [hb] at h1
  exact ⟨b, by rw [nameIn, hb], hb, h1⟩

/-- One symbol. -/
theorem sym_tree (t : Symtab) (hs : t.strings.WF) (s : Sym) (hf : SymFits s) (cs : List Nat) (hc : ∀ c ∈ cs, Plain c)
    (hn : SymNamed t.strings cs s) (h0 : ¬ AtFileStart t.strings s.name) :
    ∃ b ty, bindingNames[s.info / 16]? = some b ∧ typeNames[s.info % 16]? = some ty ∧
      symTree t s = .ok (held (symCodes cs b ty s)) ∧ value (symCodes cs b ty s) = symObject (utf16s cs) b ty s ∧
      PlainTree (symCodes cs b ty s) := by
  have hi : s.info < 256 := hf.2.1
  obtain ⟨b, b1, b2, b3⟩ := binding_plain ⟨s.info / 16, by omega⟩
  obtain ⟨ty, t1, t2, t3⟩ := type_plain ⟨s.info % 16, by omega⟩
  dsimp only at b1 b2 t1 t2
  obtain ⟨rest, hr⟩ := hn
  have hname : t.nameOf s = .ok (utf8s cs) := C06_string_to_nul_partial t.strings hs s.name h0 (utf8s cs) rest (utf8s_nonzero hc) hr
  refine ⟨b, ty, b2, t2, ?_, ?_, ?_⟩
  · unfold symTree symCodes
    rw [hname, Res.bind_ok, b1, Res.bind_ok, t1, Res.bind_ok, Res.pure_eq]
    simp only [held, heldFields, utf8s_codes b3, utf8s_codes t3, utf8s_codes (show PlainText "name" by decide),
      utf8s_codes (show PlainText "value" by decide), utf8s_codes (show PlainText "size" by decide),
      utf8s_codes (show PlainText "info" by decide), utf8s_codes (show PlainText "binding" by decide),
      utf8s_codes (show PlainText "type" by decide), utf8s_codes (show PlainText "other" by decide),
      utf8s_codes (show PlainText "shndx" by decide)]
  · unfold symCodes symObject
    simp only [value, members, utf16s_codes b3, utf16s_codes t3, utf16s_codes (show PlainText "name" by decide),
      utf16s_codes (show PlainText "value" by decide), utf16s_codes (show PlainText "size" by decide),
      utf16s_codes (show PlainText "info" by decide), utf16s_codes (show PlainText "binding" by decide),
      utf16s_codes (show PlainText "type" by decide), utf16s_codes (show PlainText "other" by decide),
      utf16s_codes (show PlainText "shndx" by decide)]
  · unfold symCodes
    simp only [PlainTree, PlainFields, and_true, true_and]
    refine ⟨plain_codes (by decide), hc, plain_codes (by decide), plain_codes (by decide), plain_codes (by decide),
      plain_codes (by decide), plain_codes b3, plain_codes (by decide), plain_codes t3, plain_codes (by decide), plain_codes (by decide)⟩

theorem sym_trees (t : Symtab) (hs : t.strings.WF) (names : Sym → List Nat) : ∀ syms : List Sym,
    (∀ s ∈ syms, SymFits s ∧ (∀ c ∈ names s, Plain c) ∧ SymNamed t.strings (names s) s ∧ ¬ AtFileStart t.strings s.name) →
    ∃ xs, symTrees t syms = .ok (heldItems xs) ∧ PlainItems xs ∧
      EachShown (fun s v => ∃ b ty, bindingNames[s.info / 16]? = some b ∧ typeNames[s.info % 16]? = some ty ∧
        v = symObject (utf16s (names s)) b ty s) syms (values xs)
  | [], _ => ⟨[], by rw [symTrees, heldItems], by rw [PlainItems]; trivial, by rw [values]; exact .nil⟩
  | s :: rest, h => by
    obtain ⟨h1, h2, h3, h4⟩ := h s (by simp)
    obtain ⟨b, ty, b1, b2, b3, b4, b5⟩ := sym_tree t hs s h1 (names s) h2 h3 h4
    obtain ⟨xs, c1, c2, c3⟩ := sym_trees t hs names rest (fun x hx => h x (by simp [hx]))
    refine ⟨symCodes (names s) b ty s :: xs, ?_, ?_, ?_⟩
    · rw [symTrees, b3, Res.bind_ok, c1, Res.bind_ok, Res.pure_eq, heldItems]
    · rw [PlainItems]; exact ⟨b5, c2⟩
    · rw [values, b4]; exact .cons ⟨b, ty, b1, b2, rfl⟩ c3

/-- The text for the symbols, with the names of the program's own tables. -/
theorem dump_syms (t : Symtab) (syms : List Sym) (hh : HoldsSyms t.symbols syms) (hs : t.strings.WF) (names : Sym → List Nat)
    (hn : ∀ s ∈ syms, (∀ c ∈ names s, Plain c) ∧ SymNamed t.strings (names s) s ∧ ¬ AtFileStart t.strings s.name) :
    ∃ txt vs, dumpSymbols t = .ok txt ∧ parseJson txt = some (.arr vs) ∧
      EachShown (fun s v => ∃ b ty, bindingNames[s.info / 16]? = some b ∧ typeNames[s.info % 16]? = some ty ∧
        v = symObject (utf16s (names s)) b ty s) syms vs := by
  have hfit : ∀ s ∈ syms, SymFits s := by
    rcases hh with ⟨-, e⟩ | ⟨-, -, -, h⟩
    · intro s h; rw [e] at h; cases h
    · exact h
  obtain ⟨xs, c1, c2, c3⟩ := sym_trees t hs names syms (fun s hs => ⟨hfit s hs, hn s hs⟩)
  obtain ⟨txt, p1, p2⟩ := C39_round_trip_partial (.list xs) (by rw [PlainTree]; exact c2)
  rw [held] at p1
  rw [value] at p2
  refine ⟨txt, values xs, ?_, p2, c3⟩
  unfold dumpSymbols
  rw [entries_of t syms hh, Res.bind_ok, c1, Res.bind_ok, p1]

theorem each_mono {α : Type} {R S : α → JVal → Prop} : ∀ {l : List α} {vs : List JVal}, EachShown R l vs →
    (∀ a ∈ l, ∀ v, R a v → S a v) → EachShown S l vs
  | _, _, .nil, _ => .nil
  | _, _, .cons h t, f => .cons (f _ (by simp) _ h) (each_mono t (fun a ha => f a (by simp [ha])))

theorem fair_names : ∀ i : Fin 256, (i.1 / 16 ∈ [0, 1, 2, 13] → bindingNames[i.1 / 16]? = elfBinding (i.1 / 16)) ∧
    (i.1 % 16 ∈ [0, 1, 2, 3, 4, 13, 15] → typeNames[i.1 % 16]? = elfSymType (i.1 % 16)) := by decide +kernel

/-- C100. For every table of symbols and every table of strings that has their names, the text written for the symbols is a JSON text
for an array with one object for each symbol, in order, with its name, its fields and the ELF names of its binding and type. Missing:
the bindings and types that are shown under another name (below), and names that C39 excludes. -/
theorem C100_symbols_partial (t : Symtab) (syms : List Sym) (hh : HoldsSyms t.symbols syms) (hs : t.strings.WF) (names : Sym → List Nat)
    (hn : ∀ s ∈ syms, (∀ c ∈ names s, Plain c) ∧ SymNamed t.strings (names s) s ∧ ¬ AtFileStart t.strings s.name)
    (hf : ∀ s ∈ syms, FairSym s) :
    ∃ txt vs, dumpSymbols t = .ok txt ∧ parseJson txt = some (.arr vs) ∧ EachShown (fun s v => SymShownAs (names s) s v) syms vs := by
  have hfit : ∀ s ∈ syms, SymFits s := by
    rcases hh with ⟨-, e⟩ | ⟨-, -, -, h⟩
    · intro s h; rw [e] at h; cases h
    · exact h
  obtain ⟨txt, vs, h1, h2, h3⟩ := dump_syms t syms hh hs names hn
  refine ⟨txt, vs, h1, h2, each_mono h3 ?_⟩
  rintro s hm v ⟨b, ty, e1, e2, rfl⟩
  have := fair_names ⟨s.info, (hfit s hm).2.1⟩
  dsimp only at this
  rw [this.1 (hf s hm).1] at e1
  rw [this.2 (hf s hm).2] at e2
  exact ⟨b, ty, e1, e2, rfl⟩

/-- C100 fails for the other bindings and types that ELF names: STT_COMMON, STT_TLS, STT_GNU_IFUNC, STB_GNU_UNIQUE and STB_HIPROC. For
no table is a symbol of such a type or binding shown with that name. -/
theorem C100_not_named (t : Symtab) (s : Sym) (hh : HoldsSyms t.symbols [s]) (hs : t.strings.WF) (cs : List Nat)
    (hn : (∀ c ∈ cs, Plain c) ∧ SymNamed t.strings cs s ∧ ¬ AtFileStart t.strings s.name)
    (hk : s.info / 16 = 10 ∨ s.info / 16 = 15 ∨ s.info % 16 = 5 ∨ s.info % 16 = 6 ∨ s.info % 16 = 10) :
    ∃ txt v, dumpSymbols t = .ok txt ∧ parseJson txt = some (.arr [v]) ∧ ¬ SymShownAs cs s v := by
  have hfit : SymFits s := by
    rcases hh with ⟨-, e⟩ | ⟨-, -, -, h⟩
    · cases e
    · exact h s (by simp)
  obtain ⟨txt, vs, h1, h2, h3⟩ := dump_syms t [s] hh hs (fun _ => cs) (by intro x hx; simp only [List.mem_singleton] at hx; subst hx; exact hn)
  cases h3 with
  | cons hv ht =>
    cases ht
    obtain ⟨b, ty, e1, e2, rfl⟩ := hv
    refine ⟨txt, _, h1, h2, ?_⟩
    rintro ⟨b', ty', f1, f2, f3⟩
    unfold symObject at f3
    injection f3 with f3
    simp only [List.cons.injEq, Prod.mk.injEq, JVal.str.injEq, true_and, and_true] at f3
    obtain ⟨g1, g2⟩ := f3
    have key : ∀ i : Fin 256, (i.1 / 16 = 10 ∨ i.1 / 16 = 15 ∨ i.1 % 16 = 5 ∨ i.1 % 16 = 6 ∨ i.1 % 16 = 10) →
        ¬ ((bindingNames[i.1 / 16]?).map charCodes = (elfBinding (i.1 / 16)).map charCodes ∧
           (typeNames[i.1 % 16]?).map charCodes = (elfSymType (i.1 % 16)).map charCodes) := by decide +kernel
    refine key ⟨s.info, hfit.2.1⟩ hk ⟨?_, ?_⟩
    · dsimp only; rw [e1, f1]; exact congrArg some g1
    · dsimp only; rw [e2, f2]; exact congrArg some g2

/-! ### Relocations -/

theorem load_two (a b : List Byte) : load (a ++ b) = load a + 256 ^ a.length * load b := by
  induction a with
  | nil => simp [load]
  | cons x a ih => simp only [List.cons_append, load, ih, List.length_cons, Nat.pow_succ]; grind

theorem rela_decode (r : Relocation) (h : r.InRange) : Rela.decode r.bytes = ⟨r.offset, r.type + 2 ^ 32 * r.sym, r.addend⟩ := by
  obtain ⟨h1, h2, h3, h4⟩ := h
  unfold Rela.decode Relocation.bytes
  rw [Rela.mk.injEq]
  refine ⟨?_, ?_, ?_⟩
  · rw [List.append_assoc]; exact field_at [] _ 0 8 _ rfl h1
  · unfold field
    rw [List.append_assoc, List.drop_left' (leBytes_length 8 _), List.take_left' (by simp [leBytes_length]), load_two,
      load_eq, load_eq, leNat_leBytes, leNat_leBytes, leBytes_length, Nat.mod_eq_of_lt (by simpa using h2), Nat.mod_eq_of_lt (by simpa using h3)]
  · have := field_at (leBytes 8 r.offset ++ (leBytes 4 r.type ++ leBytes 4 r.sym)) [] 16 8 r.addend (by simp [leBytes_length]) h4
    simpa using this

theorem relocation_length (r : Relocation) : r.bytes.length = 24 := by simp [Relocation.bytes, leBytes_length]

def relaCodes (r : Relocation) : Tree (List Nat) :=
  .obj true [(charCodes "r_offset", .int r.offset), (charCodes "r_info-sym", .int r.sym), (charCodes "r_info-type", .int r.type)]

theorem rela_tree (r : Relocation) (h : r.InRange) :
    relaTree (Rela.decode r.bytes) = held (relaCodes r) ∧ value (relaCodes r) = r.shown ∧ PlainTree (relaCodes r) := by
  rw [rela_decode r h]
  have e1 : (r.type + 2 ^ 32 * r.sym) / 2 ^ 32 = r.sym := by have := h.2.1; omega
  have e2 : (r.type + 2 ^ 32 * r.sym) % 2 ^ 32 = r.type := by have := h.2.1; omega
  unfold relaTree relaCodes Relocation.shown
  dsimp only
  rw [e1, e2]
  simp only [held, heldFields, value, members, PlainTree, PlainFields, utf8s_codes (show PlainText "r_offset" by decide),
    utf8s_codes (show PlainText "r_info-sym" by decide), utf8s_codes (show PlainText "r_info-type" by decide),
    utf16s_codes (show PlainText "r_offset" by decide), utf16s_codes (show PlainText "r_info-sym" by decide),
    utf16s_codes (show PlainText "r_info-type" by decide), true_and, and_true]
  exact ⟨plain_codes (by decide), plain_codes (by decide), plain_codes (by decide)⟩

theorem rela_trees : ∀ rs : List Relocation, (∀ r ∈ rs, r.InRange) →
    (rs.map Relocation.bytes).map (fun e => relaTree (Rela.decode e)) = heldItems (rs.map relaCodes) ∧
    values (rs.map relaCodes) = rs.map Relocation.shown ∧ PlainItems (rs.map relaCodes)
  | [], _ => ⟨by simp [heldItems], by simp [values], by simp [PlainItems]⟩
  | r :: rs, h => by
    obtain ⟨a, b, c⟩ := rela_trees rs (fun x hx => h x (by simp [hx]))
    obtain ⟨d, e, f⟩ := rela_tree r (h r (by simp))
    simp only [List.map_cons]
    rw [heldItems, values, PlainItems, a, b, d, e]
    exact ⟨rfl, rfl, f, c⟩

/-- C100. For every section of relocations with addends, the text written is a JSON text for an array with one object for each, in
order, with the place, the symbol and the type. -/
theorem C100_relocations_partial (io : Rdr) (hw : io.WF) (hsz : io.size + 1024 < 2 ^ 64) (rs : List Relocation)
    (hc : io.content = (rs.map Relocation.bytes).flatten) (hr : ∀ r ∈ rs, r.InRange) :
    ∃ txt, dumpRelocs io = .ok txt ∧ parseJson txt = some (.arr (rs.map Relocation.shown)) := by
  have hlen : ∀ e ∈ rs.map Relocation.bytes, e.length = 24 := by
    intro e he
    obtain ⟨p, _, rfl⟩ := List.mem_map.1 he
    exact relocation_length p
  obtain ⟨a, b, c⟩ := rela_trees rs hr
  obtain ⟨txt, p1, p2⟩ := C39_round_trip_partial (.list (rs.map relaCodes)) (by rw [PlainTree]; exact c)
  rw [held] at p1
  rw [value, b] at p2
  refine ⟨txt, ?_, p2⟩
  unfold dumpRelocs
  rw [readerArray_rdr io hw 24 (1024 / 24) (by decide) (by decide) (by rw [W64_eq]; omega) _ hc hlen, Res.bind_ok, a, p1]

/-- C100: the addends are not shown. Sections that differ in nothing else give the same text. -/
theorem C100_not_addend (io io' : Rdr) (hw : io.WF) (hw' : io'.WF) (hsz : io.size + 1024 < 2 ^ 64) (hsz' : io'.size + 1024 < 2 ^ 64)
    (r : Relocation) (a : Nat) (hr : r.InRange) (ha : a < 2 ^ 64)
    (hc : io.content = r.bytes) (hc' : io'.content = { r with addend := a }.bytes) : dumpRelocs io = dumpRelocs io' := by
  have step : ∀ (x : Rdr) (q : Relocation), x.WF → x.size + 1024 < 2 ^ 64 → x.content = q.bytes →
      dumpRelocs x = Json.print (.list [relaTree (Rela.decode q.bytes)]) := by
    intro x q h1 h2 h3
    unfold dumpRelocs
    rw [readerArray_rdr x h1 24 (1024 / 24) (by decide) (by decide) (by rw [W64_eq]; omega) [q.bytes] (by rw [h3]; simp)
      (by intro e he; simp only [List.mem_singleton] at he; subst he; exact relocation_length q), Res.bind_ok]
    rfl
  rw [step io r hw hsz hc, step io' _ hw' hsz' hc', rela_decode r hr, rela_decode ⟨r.offset, r.type, r.sym, a⟩ ⟨hr.1, hr.2.1, hr.2.2.1, ha⟩]
  rfl

/-- A table of three symbols with names, and a section of two relocations, that meet the hypotheses. -/
def dumpedSyms : List Sym := [⟨0, 0, 0, 0, 0, 0⟩, ⟨1, 0x12, 0, 7, 0x401000, 32⟩, ⟨4, 0x21, 2, 0xfff1, 8, 2 ^ 63⟩]

def dumpedTab : Symtab :=
  ⟨.mem ((dumpedSyms.map symBytes).flatten) 0 72, .mem [0#8, 0x66#8, 0x22#8, 0#8, 0x67#8, 0#8] 0 6⟩

def dumpedNames (s : Sym) : List Nat := if s.name = 0 then [] else if s.name = 1 then [0x66, 0x22] else [0x67]

theorem C100_example :
    HoldsSyms dumpedTab.symbols dumpedSyms ∧ dumpedTab.strings.WF ∧
    (∀ s ∈ dumpedSyms, (∀ c ∈ dumpedNames s, Plain c) ∧ SymNamed dumpedTab.strings (dumpedNames s) s ∧ ¬ AtFileStart dumpedTab.strings s.name) ∧
    (∀ s ∈ dumpedSyms, FairSym s) ∧
    (∀ r ∈ [(⟨0x3000, 7, 2, 0⟩ : Relocation), ⟨0x3008, 8, 0, 2 ^ 64 - 8⟩], r.InRange) := by
  refine ⟨.inr ⟨?_, ?_, ?_, ?_⟩, ?_, ?_, ?_, ?_⟩
  · unfold dumpedTab Rdr.WF; decide +kernel
  · decide +kernel
  · decide +kernel
  · unfold SymFits dumpedSyms; decide
  · unfold dumpedTab Rdr.WF; decide +kernel
  · intro s hs
    simp only [dumpedSyms, List.mem_cons, List.not_mem_nil, or_false] at hs
    rcases hs with rfl | rfl | rfl
    · exact ⟨by simp [dumpedNames], ⟨_, rfl⟩, id⟩
    · exact ⟨by simp [dumpedNames, Plain, IsScalar], ⟨_, rfl⟩, id⟩
    · exact ⟨by simp [dumpedNames, Plain, IsScalar], ⟨_, rfl⟩, id⟩
  · unfold FairSym dumpedSyms; decide
  · unfold Relocation.InRange; simp

end Pstack.Props
