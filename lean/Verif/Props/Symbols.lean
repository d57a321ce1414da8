import Verif.Props.SymHash
import Verif.Props.Segments
import Verif.Spec.Symbols
/-
Property theorems C86: symbols of a process by name (Spec/Symbols.lean).
-/
namespace Pstack.Props
open Pstack.Reader Pstack.Elf Pstack.Symbols Pstack.Spec

/-! ### The symbols of one object -/

/-- The cache of these symbols. -/
def symCache (nameOf : Sym → List Byte) : List Sym → Nat → SymCache → SymCache
  | [], _, c => c
  | s :: rest, i, c => symCache nameOf rest (i + 1) ((nameOf s, i) :: c)

theorem fill_cache {t : Symtab} {nameOf : Sym → List Byte} : ∀ (n : Nat) (w : ArrWin) (i : Nat) (c : SymCache) (es : List (List Byte)),
    iterate t.symbols.read 0 24 (1024 / 24) n w i = .ok es → (∀ e ∈ es, t.strings.readString (Sym.decode e).name = .ok (nameOf (Sym.decode e))) →
    fillSymbols t n w i c = (.ok (), symCache nameOf (es.map Sym.decode) i c)
  | 0, _, _, _, _, h, _ => by cases h; rfl
  | n + 1, w, i, c, es, h, hn => by
    rw [iterate] at h
    rw [fillSymbols]
    generalize w.getitem t.symbols.read 0 24 (1024 / 24) i = r at h ⊢
    obtain ⟨w', r⟩ := r
    obtain ⟨x, h1, h⟩ := Res.bind_eq_ok.1 h
    obtain ⟨xs, h2, h⟩ := Res.bind_eq_ok.1 h
    cases h
    subst h1
    simp only
    have e : t.nameOf (Sym.decode x) = .ok (nameOf (Sym.decode x)) := hn x (.head _)
    rw [e]
    exact fill_cache n w' (i + 1) _ xs h2 (fun u hu => hn u (.tail _ hu))

theorem cache_find {nameOf : Sym → List Byte} {name : List Byte} : ∀ (l : List Sym) (i : Nat) (c : SymCache),
    (∃ (j : Nat) (s : Sym), l[j]? = some s ∧ nameOf s = name ∧ (∀ (k : Nat) (u : Sym), j < k → l[k]? = some u → nameOf u ≠ name) ∧
      (symCache nameOf l i c).find? (fun e => e.1 == name) = some (name, i + j)) ∨
    ((∀ s ∈ l, nameOf s ≠ name) ∧ (symCache nameOf l i c).find? (fun e => e.1 == name) = c.find? (fun e => e.1 == name))
  | [], _, _ => .inr ⟨(fun _ h => nomatch h), rfl⟩
  | s :: rest, i, c => by
    rcases cache_find (nameOf := nameOf) (name := name) rest (i + 1) ((nameOf s, i) :: c) with ⟨j, u, h1, h2, h3, h4⟩ | ⟨h1, h2⟩
    · refine .inl ⟨j + 1, u, h1, h2, ?_, ?_⟩
      · intro k v hk hv
        cases k with
        | zero => omega
        | succ k => exact h3 k v (by omega) hv
      · rw [symCache, h4]; congr 2; omega
    · by_cases hs : nameOf s = name
      · refine .inl ⟨0, s, rfl, hs, ?_, ?_⟩
        · intro k v hk hv
          cases k with
          | zero => omega
          | succ k => exact h1 v (List.mem_of_getElem? hv)
        · rw [symCache, h2, List.find?_cons, hs]
          simp
      · refine .inr ⟨?_, ?_⟩
        · intro u hu
          rcases List.mem_cons.1 hu with rfl | hu
          · exact hs
          · exact h1 u hu
        · rw [symCache, h2, List.find?_cons]
          rw [show (nameOf s == name) = false from by simp [hs]]

/-- What a cache may be. -/
def CacheOk (d : DynTable) (c : Option SymCache) : Prop := c = none ∨ c = some (symCache d.nameOf d.syms 0 [])

theorem load_ok {t : Symtab} {d : DynTable} (h : d.In t.symbols t.strings) {c : Option SymCache} (hc : CacheOk d c) : loadSymbols t c = (.ok (), some (symCache d.nameOf d.syms 0 [])) := by
  have he := entries_of t d.syms h.1
  unfold Symtab.entries at he
  obtain ⟨es, h1, h2⟩ := Res.bind_eq_ok.1 he
  injection h2 with h2
  rw [← h2]
  unfold readerArray at h1
  by_cases hs : t.symbols.size ≠ maxOff ∧ t.symbols.size % 24 ≠ 0
  · rw [if_pos hs] at h1; cases h1
  rw [if_neg hs] at h1
  unfold loadSymbols
  rw [if_neg hs]
  rcases hc with rfl | rfl
  · simp only
    have hsz : t.symbols.size < W64 := by
      rcases h.1 with ⟨e, _⟩ | ⟨_, e, _⟩
      · rw [e, W64_eq]; decide
      · rw [W64_eq]; omega
    rw [Nat.sub_zero, Nat.add_mod_right, Nat.mod_eq_of_lt hsz] at h1
    rw [fill_cache _ _ _ _ es h1 (fun e he => h.2 _ (by rw [← h2]; exact List.mem_map_of_mem he))]
  · rw [h2]

/-- `findDebugSymbol` is the last symbol of the name. -/
theorem debug_symbol {t : Symtab} {d : DynTable} (h : d.In t.symbols t.strings) {c : Option SymCache} (hc : CacheOk d c) (name : List Byte) :
    ∃ s i, findDebugSymbol t name c = (.ok (s, i), some (symCache d.nameOf d.syms 0 [])) ∧
      ((d.syms[i]? = some s ∧ d.nameOf s = name ∧ ∀ (k : Nat) (u : Sym), i < k → d.syms[k]? = some u → d.nameOf u ≠ name) ∨ (s = undefSym ∧ ∀ u ∈ d.syms, d.nameOf u ≠ name)) := by
  unfold findDebugSymbol
  rw [load_ok h hc]
  simp only [Option.getD_some]
  unfold cachedSymbol
  rcases cache_find (nameOf := d.nameOf) (name := name) d.syms 0 [] with ⟨j, s, h1, h2, h3, h4⟩ | ⟨h1, h2⟩
  · rw [h4]
    simp only [Nat.zero_add]
    rw [readSym_at _ _ h.1 j s h1, Res.bind_ok]
    exact ⟨s, j, rfl, .inl ⟨h1, h2, h3⟩⟩
  · rw [h2]
    exact ⟨undefSym, 0, rfl, .inr ⟨rfl, h1⟩⟩

/-- `findDynamicSymbol` is exact. -/
theorem dynamic_symbol {name : List Byte} (hz : ∀ b ∈ name, b ≠ 0#8) {t : DynTable} {entered : Nat → Prop} {g : Option GnuHash} {h : Option SymHash} (hd : DynOk name t entered g h) :
    ∃ s i, findDynamicSymbol g h name = .ok (s, i) ∧ Exact t entered name (i, s) := by
  cases hd with
  | gnu g hash symtab strtab x other hg hw hb hin hm he =>
    obtain ⟨x', s, i, h1, h2, h3⟩ := C31_find_dynamic_symbol g t hg hash symtab strtab hw hb hin h name hz
    rw [hm] at h1; cases h1
    refine ⟨s, i, h2, ?_⟩
    have : entered = (g.symoffset ≤ ·) := funext (fun i => propext (he i))
    rw [this]; exact h3
  | sysv hh hash symtab strtab x hg hw hb hin hm ha =>
    obtain ⟨x', r, h1, h2, h3⟩ := C31_sysv_lookup_partial t hh entered hg hash symtab strtab hw hb hin name ha
    rw [hm] at h1; cases h1
    unfold findDynamicSymbol
    simp only
    rw [h2, Res.bind_ok]
    rcases h3 with ⟨i, s, rfl, h4, h5⟩ | ⟨rfl, h4⟩
    · exact ⟨s, i, if_neg h4, .inl ⟨i, s, rfl, h4, h5⟩⟩
    · exact ⟨undefSym, 0, rfl, .inr ⟨rfl, h4⟩⟩
  | none he =>
    exact ⟨undefSym, 0, rfl, .inr ⟨rfl, fun i s hi => absurd hi (he i)⟩⟩

/-! ### The objects of a process -/

def CachesOk (d : Nat → ImageSyms) (m : Caches) : Prop := ∀ k, CacheOk (d k).debug (m k)

theorem caches_set {d : Nat → ImageSyms} {m : Caches} (h : CachesOk d m) (k : Nat) : CachesOk d (m.set k (some (symCache (d k).debug.nameOf (d k).debug.syms 0 []))) := by
  intro i
  unfold Caches.set
  by_cases hi : i = k
  · rw [if_pos hi, hi]; exact .inr rfl
  · rw [if_neg hi]; exact h i

section
variable {imgs : Nat → SymTabs} {d : Nat → ImageSyms}

theorem resolve_caches (hd : ∀ k, (d k).debug.In (imgs k).debug.symbols (imgs k).debug.strings) {name : List Byte} {incl : Bool} {asked : List Byte → Bool} :
    ∀ (objs : List Loaded) {m : Caches}, CachesOk d m → CachesOk d (resolveDetail imgs name incl asked objs m).2
  | [], _, hm => hm
  | l :: rest, m, hm => by
    unfold resolveDetail
    split
    · exact resolve_caches hd rest hm
    generalize l.obj = o
    cases o with
    | none => exact resolve_caches hd rest hm
    | some k =>
      simp only
      generalize findDynamicSymbol (imgs k).gnu (imgs k).hash name = r
      cases r with
      | ok r =>
        obtain ⟨s, i⟩ := r
        simp only
        split
        · exact hm
        split
        · obtain ⟨s', i', h1, _⟩ := debug_symbol (hd k) (hm k) name
          rw [h1]
          simp only
          split
          · exact caches_set hm k
          · exact resolve_caches hd rest (caches_set hm k)
        · exact resolve_caches hd rest hm
      | exc => exact hm
      | ub => exact hm
      | abort => exact hm

theorem history_caches (hd : ∀ k, (d k).debug.In (imgs k).debug.symbols (imgs k).debug.strings) {m : Caches} (hm : SymHistory imgs m) : CachesOk d m := by
  induction hm with
  | start => exact fun _ => .inl rfl
  | step name incl asked objs _ ih => exact resolve_caches hd objs ih

theorem first_skip {incl : Bool} {asked : List Byte → Bool} {name : List Byte} {l : Loaded} {rest : List Loaded} (hn : asked l.name = true → ∀ j, l.obj = some j → ∀ u, ¬(d j).Offers incl name u) {k base : Nat}
    {s : Sym} (h : FirstOffer d incl asked name rest k base s) : FirstOffer d incl asked name (l :: rest) k base s := by
  obtain ⟨b, x, a, h1, h2, h3, h4, h5, h6⟩ := h
  refine ⟨l :: b, x, a, by rw [h1]; rfl, h2, h3, h4, h5, ?_⟩
  intro q hq
  rcases List.mem_cons.1 hq with rfl | hq
  · exact hn
  · exact h6 q hq

theorem no_skip {incl : Bool} {asked : List Byte → Bool} {name : List Byte} {l : Loaded} {rest : List Loaded} (hn : asked l.name = true → ∀ j, l.obj = some j → ∀ u, ¬(d j).Offers incl name u)
    (h : NoOffer d incl asked name rest) : NoOffer d incl asked name (l :: rest) := by
  intro q hq
  rcases List.mem_cons.1 hq with rfl | hq
  · exact hn
  · exact h q hq

theorem resolve_spec {name : List Byte} (hz : ∀ b ∈ name, b ≠ 0#8) (hok : ∀ k, SymsOk name (imgs k) (d k)) {incl : Bool} {asked : List Byte → Bool} :
    ∀ (objs : List Loaded) {m : Caches}, CachesOk d m →
      (∃ k base s m', resolveDetail imgs name incl asked objs m = (.ok (k, base, s), m') ∧ FirstOffer d incl asked name objs k base s) ∨
      (∃ m', resolveDetail imgs name incl asked objs m = (.exc, m') ∧ NoOffer d incl asked name objs)
  | [], m, _ => .inr ⟨m, rfl, (fun _ h => nomatch h)⟩
  | l :: rest, m, hm => by
    have skip : ∀ {m : Caches}, CachesOk d m → (asked l.name = true → ∀ j, l.obj = some j → ∀ u, ¬(d j).Offers incl name u) →
        (∃ k base s m', resolveDetail imgs name incl asked rest m = (.ok (k, base, s), m') ∧ FirstOffer d incl asked name (l :: rest) k base s) ∨
        (∃ m', resolveDetail imgs name incl asked rest m = (.exc, m') ∧ NoOffer d incl asked name (l :: rest)) := by
      intro m hm hn
      rcases resolve_spec hz hok rest hm with ⟨k, base, s, m', h1, h2⟩ | ⟨m', h1, h2⟩
      · exact .inl ⟨k, base, s, m', h1, first_skip hn h2⟩
      · exact .inr ⟨m', h1, no_skip hn h2⟩
    unfold resolveDetail
    split
    · rename_i ha
      exact skip hm (fun h => by rw [ha] at h; cases h)
    rename_i ha
    have ha : asked l.name = true := by simpa using ha
    generalize ho : l.obj = o
    cases o with
    | none =>
      simp only
      exact skip hm (fun _ j hj => by rw [ho] at hj; cases hj)
    | some k =>
      simp only
      obtain ⟨s, i, e1, e2⟩ := dynamic_symbol hz (hok k).dynamic
      rw [e1]
      simp only
      split
      · rename_i hs
        refine .inl ⟨k, l.base, s, m, rfl, [], l, rest, rfl, ha, ho, rfl, .inl ?_, (fun _ h => nomatch h)⟩
        rcases e2 with ⟨j, s', h1, h2, h3, h4, h5⟩ | ⟨h1, _⟩
        · cases h1; exact ⟨i, h3, h4, h5, hs⟩
        · cases h1; exact absurd rfl hs
      · rename_i hs
        have hs : s.shndx = 0 := by omega
        have hne : ∀ u, ¬(d k).Exports name u := by
          rintro u ⟨j, h1, h2, h3, h4⟩
          rcases e2 with ⟨j', s', g1, g2, g3, g4, g5⟩ | ⟨_, g⟩
          · cases g1
            exact h4 (((hok k).alike i j s u g3 h1 g4 h2 g5 h3).1 hs)
          · exact g j u h1 h2 h3
        split
        · rename_i hi
          obtain ⟨s', i', h1, h2⟩ := debug_symbol (hok k).debug (hm k) name
          rw [h1]
          simp only
          split
          · rename_i hs'
            refine .inl ⟨k, l.base, s', _, rfl, [], l, rest, rfl, ha, ho, rfl, .inr ⟨hne, hi, ?_, hs'⟩, (fun _ h => nomatch h)⟩
            rcases h2 with h2 | ⟨rfl, _⟩
            · exact ⟨i', h2⟩
            · exact absurd rfl hs'
          · rename_i hs'
            refine skip (caches_set hm k) ?_
            rintro _ j hj u (hu | ⟨_, _, ⟨q, hq, hq', hq''⟩, hu⟩)
            · rw [ho] at hj; cases hj; exact hne u hu
            · rw [ho] at hj; cases hj
              rcases h2 with ⟨h2, h3, h4⟩ | ⟨_, h2⟩
              · have : i' = q := by
                  rcases Nat.lt_trichotomy i' q with h | h | h
                  · exact absurd hq' (h4 q u h hq)
                  · exact h
                  · exact absurd h3 (hq'' i' s' h h2)
                subst this
                rw [hq] at h2; cases h2
                exact hs' hu
              · exact h2 u (List.mem_of_getElem? hq) hq'
        · rename_i hi
          refine skip hm ?_
          rintro _ j hj u (hu | ⟨_, hi', _⟩)
          · rw [ho] at hj; cases hj; exact hne u hu
          · exact hi hi'

/-- C86. A symbol is that of the first object, in the order of addresses, that is asked for and defines it: as a dynamic symbol, or else, if this is asked for, in its symbol table; and if none
does there is an exception. This is so after any lookups of other symbols. (Partial: of several symbols with the name in the symbol table only the last is seen, `C86_not_hidden`; it is that of the
lowest address and not of the object that is named, `C86_not_named`; and a name that cannot be read loses all that follow, `C86_not_again`.) -/
theorem C86_found_partial {name : List Byte} (hz : ∀ b ∈ name, b ≠ 0#8) (hok : ∀ k, SymsOk name (imgs k) (d k)) {m : Caches} (hm : SymHistory imgs m) (incl : Bool) (asked : List Byte → Bool)
    (objs : List Loaded) :
    (∃ k base s, (resolveDetail imgs name incl asked objs m).1 = .ok (k, base, s) ∧ FirstOffer d incl asked name objs k base s) ∨
    ((resolveDetail imgs name incl asked objs m).1 = .exc ∧ NoOffer d incl asked name objs) := by
  rcases resolve_spec hz hok objs (history_caches (fun k => (hok k).debug) hm) with ⟨k, base, s, m', h1, h2⟩ | ⟨m', h1, h2⟩
  · exact .inl ⟨k, base, s, by rw [h1], h2⟩
  · exact .inr ⟨by rw [h1], h2⟩

/-- C86. The address is that of the symbol in the object at its load address. -/
theorem C86_address {name : List Byte} (hz : ∀ b ∈ name, b ≠ 0#8) (hok : ∀ k, SymsOk name (imgs k) (d k)) {m : Caches} (hm : SymHistory imgs m) (incl : Bool) (asked : List Byte → Bool)
    (objs : List Loaded) :
    (∃ k base s, (resolveSymbol imgs name incl asked objs m).1 = .ok ((base + s.value) % 2 ^ 64) ∧ FirstOffer d incl asked name objs k base s) ∨
    ((resolveSymbol imgs name incl asked objs m).1 = .exc ∧ NoOffer d incl asked name objs) := by
  unfold resolveSymbol
  rcases resolve_spec hz hok objs (history_caches (fun k => (hok k).debug) hm) with ⟨k, base, s, m', h1, h2⟩ | ⟨m', h1, h2⟩
  · exact .inl ⟨k, base, s, by rw [h1]; simp only [W64_eq], h2⟩
  · exact .inr ⟨by rw [h1], h2⟩

omit imgs d in
theorem mem_takeWhile_true {α : Type} {p : α → Bool} {a : α} : ∀ {l : List α}, a ∈ l.takeWhile p → p a = true
  | x :: l, h => by
    rw [List.takeWhile_cons] at h
    split at h
    · rename_i hx
      rcases List.mem_cons.1 h with rfl | h
      · exact hx
      · exact mem_takeWhile_true h
    · cases h

/-- The name of a file without its directories. -/
def IsFileName (path file : List Byte) : Prop := 0x2f#8 ∉ file ∧ (path = file ∨ ∃ dir, path = dir ++ 0x2f#8 :: file)

/-- C86. `ps_pglobal_lookup`: the same, for the objects whose file has the name given, or is libc.so.6; for all objects if no name is given. -/
theorem C86_lookup {name : List Byte} (hz : ∀ b ∈ name, b ≠ 0#8) (hok : ∀ k, SymsOk name (imgs k) (d k)) {m : Caches} (hm : SymHistory imgs m) (object : Option (List Byte)) (objs : List Loaded) :
    ∃ asked : List Byte → Bool,
      (∀ path, asked path = true ↔ ∀ o, object = some o → ∃ file, IsFileName path file ∧ (file = o ∨ file = "libc.so.6".toList.map (fun c => BitVec.ofNat 8 c.toNat))) ∧
      ((∃ k base s, (psLookup imgs object name objs m).1 = .ok (some ((base + s.value) % 2 ^ 64)) ∧ FirstOffer d true asked name objs k base s) ∨
       ((psLookup imgs object name objs m).1 = .ok none ∧ NoOffer d true asked name objs)) := by
  refine ⟨lookupIn object, ?_, ?_⟩
  · intro path
    have hlib : "libc.so.6".toList.map (fun c => BitVec.ofNat 8 c.toNat) = libcName := by decide +kernel
    rw [hlib]
    have hfile : IsFileName path (fileName path) := by
      unfold fileName IsFileName
      refine ⟨fun h => ?_, ?_⟩
      · have := List.mem_reverse.1 h
        have t := mem_takeWhile_true this
        exact absurd rfl (of_decide_eq_true t)
      · have hs := List.takeWhile_append_dropWhile (p := fun b : Byte => decide (b ≠ 0x2f#8)) (l := path.reverse)
        generalize hdw : path.reverse.dropWhile (fun b : Byte => decide (b ≠ 0x2f#8)) = w at hs
        have hp : path = w.reverse ++ (path.reverse.takeWhile (fun b : Byte => decide (b ≠ 0x2f#8))).reverse := by
          rw [← List.reverse_append, hs, List.reverse_reverse]
        cases w with
        | nil => left; exact hp
        | cons x w =>
          right
          have hx : x = 0x2f#8 := by
            have := List.head?_dropWhile_not (fun b : Byte => decide (b ≠ 0x2f#8)) path.reverse
            rw [hdw] at this
            simpa using this
          subst hx
          refine ⟨w.reverse, ?_⟩
          rw [List.reverse_cons, List.append_assoc] at hp
          exact hp
    have huniq : ∀ file, IsFileName path file → file = fileName path := by
      rintro file ⟨h1, h2⟩
      have hall : ∀ b ∈ file.reverse, decide (b ≠ 0x2f#8) = true := fun b hb => decide_eq_true (fun h => h1 (by rw [← h]; exact List.mem_reverse.1 hb))
      unfold fileName
      rcases h2 with rfl | ⟨dir, rfl⟩
      · have := List.takeWhile_append_of_pos (l₂ := []) hall
        rw [List.append_nil] at this
        rw [this]; simp
      · rw [List.reverse_append, List.reverse_cons, List.append_assoc, List.takeWhile_append_of_pos hall]
        simp
    unfold lookupIn
    cases object with
    | none => exact ⟨fun _ o ho => by (cases ho), fun _ => rfl⟩
    | some o =>
      simp only [Bool.or_eq_true, beq_iff_eq]
      constructor
      · intro h o' ho'
        cases ho'
        exact ⟨fileName path, hfile, h⟩
      · intro h
        obtain ⟨file, h1, h2⟩ := h o rfl
        rw [huniq file h1] at h2
        exact h2
  · unfold psLookup
    rcases C86_address hz hok hm true (lookupIn object) objs with ⟨k, base, s, h1, h2⟩ | ⟨h1, h2⟩
    · refine .inl ⟨k, base, s, ?_, h2⟩
      generalize resolveSymbol imgs name true (lookupIn object) objs m = r at h1
      obtain ⟨r, m'⟩ := r
      simp only at h1
      rw [h1]
    · refine .inr ⟨?_, h2⟩
      generalize resolveSymbol imgs name true (lookupIn object) objs m = r at h1
      obtain ⟨r, m'⟩ := r
      simp only at h1
      rw [h1]

end

/-! ### Two objects -/

/-- Names: "m" at 1, "n" at 3. -/
def twoStrings : List Byte := [0#8, 0x6d#8, 0#8, 0x6e#8, 0#8]
def twoNameOf (s : Sym) : List Byte := if s.name = 1 then [0x6d#8] else if s.name = 3 then [0x6e#8] else nullString
/-- A definition of "n", and later a reference. -/
def twoFirst : List Sym := [undefSym, ⟨3, 1, 0, 1, 0x50, 8⟩, ⟨3, 16, 0, 0, 0, 0⟩]
def twoSecond : List Sym := [undefSym, ⟨1, 18, 0, 1, 0x40, 8⟩]

def twoTab (l : List Sym) : Symtab := ⟨.file (l.map symBytes).flatten, .file twoStrings⟩

/-- The first object has dynamic symbols "a", "b" and "c". -/
def twoGnu : GnuHash := ⟨.file C31_gnu.bytes, .file (C31_syms.map symBytes).flatten, .file C31_strings, 2, 1, 1, 6⟩

def twoTabs (k : Nat) : SymTabs := if k = 0 then ⟨some twoGnu, none, twoTab twoFirst⟩ else ⟨none, none, twoTab twoSecond⟩

def twoSyms (k : Nat) : ImageSyms := if k = 0 then ⟨C31_table, (1 ≤ ·), ⟨twoFirst, twoNameOf⟩⟩ else ⟨⟨[], fun _ => []⟩, fun _ => False, ⟨twoSecond, twoNameOf⟩⟩

def twoLoaded : List Loaded := [⟨0x1000, "/lib/libc.so.6".toList.map (fun c => BitVec.ofNat 8 c.toNat), some 0⟩, ⟨0x3000, [], none⟩, ⟨0x5000, "/bin/x".toList.map (fun c => BitVec.ofNat 8 c.toNat), some 1⟩]

theorem two_ok (name : List Byte) (k : Nat) : SymsOk name (twoTabs k) (twoSyms k) := by
  unfold twoTabs twoSyms
  by_cases hk : k = 0
  · rw [if_pos hk, if_pos hk]
    refine ⟨.gnu C31_gnu (.file C31_gnu.bytes) (.file (C31_syms.map symBytes).flatten) (.file C31_strings) twoGnu none C31_gnu_good (by simp only [Rdr.WF]; decide +kernel) rfl C31_table_in
      (by rfl) (fun i => Iff.rfl), ?_, ?_⟩
    · refine ⟨.inr ⟨by simp only [Rdr.WF, twoTab]; decide +kernel, by decide +kernel, rfl, by simp [twoFirst, SymFits, undefSym]⟩, ?_⟩
      intro s hs
      simp only [twoFirst, List.mem_cons, List.not_mem_nil, or_false] at hs
      rcases hs with rfl | rfl | rfl <;> decide +kernel
    · intro i j s u h1 h2 h3 h4 _ _
      have key : ∀ i s, (1 ≤ i) → C31_syms[i]? = some s → s.shndx = 1 := by
        intro i s h1 h2
        have := C31_cases h2
        have : i = 1 ∨ i = 2 ∨ i = 3 := by omega
        rcases this with rfl | rfl | rfl <;> (simp [C31_syms] at h2; subst h2; rfl)
      rw [key i s h1 h3, key j u h2 h4]
  · rw [if_neg hk, if_neg hk]
    refine ⟨.none (fun _ h => h), ?_, fun _ _ _ _ h => h.elim⟩
    refine ⟨.inr ⟨by simp only [Rdr.WF, twoTab]; decide +kernel, by decide +kernel, rfl, by simp [twoSecond, SymFits, undefSym]⟩, ?_⟩
    intro s hs
    simp only [twoSecond, List.mem_cons, List.not_mem_nil, or_false] at hs
    rcases hs with rfl | rfl <;> decide +kernel

/-- "a" is a dynamic symbol of the first object, "m" is in the symbol table of the other; "z" is in none. The symbols of the other object are not seen without the symbol table. -/
theorem C86_example : (∀ name k, SymsOk name (twoTabs k) (twoSyms k)) ∧
    (resolveSymbol twoTabs [0x61#8] false (fun _ => true) twoLoaded (fun _ => none)).1 = .ok 0x2000 ∧
    (resolveSymbol twoTabs [0x6d#8] true (fun _ => true) twoLoaded (fun _ => none)).1 = .ok 0x5040 ∧
    (resolveSymbol twoTabs [0x6d#8] false (fun _ => true) twoLoaded (fun _ => none)).1 = .exc ∧
    (resolveSymbol twoTabs [0x7a#8] true (fun _ => true) twoLoaded (fun _ => none)).1 = .exc ∧
    (psLookup twoTabs (some [0x78#8]) [0x6d#8] twoLoaded (fun _ => none)).1 = .ok (some 0x5040) ∧
    (psLookup twoTabs (some [0x79#8]) [0x6d#8] twoLoaded (fun _ => none)).1 = .ok none := by
  refine ⟨two_ok, ?_, ?_, ?_, ?_, ?_, ?_⟩ <;> decide +kernel

/-- C86: a definition in the symbol table is not found if a reference of the same name follows it. -/
theorem C86_not_hidden : ∃ (i : Nat) (s : Sym), (twoSyms 0).debug.syms[i]? = some s ∧ (twoSyms 0).debug.nameOf s = [0x6e#8] ∧ s.shndx ≠ 0 ∧
    (resolveSymbol twoTabs [0x6e#8] true (fun _ => true) twoLoaded (fun _ => none)).1 = .exc :=
  ⟨1, ⟨3, 1, 0, 1, 0x50, 8⟩, rfl, rfl, by decide, by decide +kernel⟩

/-- C86: the object that is named has the symbol, but that of libc.so.6, at a lower address, is found. -/
theorem C86_not_named : ∃ objs : List Loaded, (∃ l ∈ objs, fileName l.name = [0x78#8] ∧ l.obj = some 2 ∧ l.base = 0x5000) ∧
    (∃ s, (twoSyms 2).Offers true [0x6d#8] s ∧ s.value = 0x40) ∧
    (psLookup twoTabs (some [0x78#8]) [0x6d#8] objs (fun _ => none)).1 = .ok (some 0x1040) := by
  refine ⟨[⟨0x1000, libcName, some 1⟩, ⟨0x5000, [0x78#8], some 2⟩], ⟨_, .tail _ (.head _), by decide, rfl, rfl⟩,
    ⟨⟨1, 18, 0, 1, 0x40, 8⟩, .inr ⟨fun u hu => ?_, rfl, ⟨1, rfl, rfl, ?_⟩, by decide⟩, rfl⟩, by decide +kernel⟩
  · obtain ⟨i, h, _⟩ := hu; exact h
  · intro j u hj hu
    have : j < 2 := (List.getElem?_eq_some_iff.1 hu).1
    omega

/-- A symbol table of 43 symbols, all but the last of which are in the file. -/
def brokenTab : Symtab := ⟨.window (.file ((List.replicate 42 (⟨1, 18, 0, 1, 0x40, 8⟩ : Sym)).map symBytes).flatten) 0 (43 * 24), .file twoStrings⟩

/-- C86: an exception the first time does not come again: what had been read by then is taken for all there is. -/
theorem C86_not_again : (findDebugSymbol brokenTab [0x6d#8] none).1 = .exc ∧ ∃ c, (findDebugSymbol brokenTab [0x6d#8] none).2 = some c ∧
    (findDebugSymbol brokenTab [0x6d#8] (some c)).1 = .ok (⟨1, 18, 0, 1, 0x40, 8⟩, 41) ∧ (findDebugSymbol brokenTab [0x6e#8] (some c)).1 = .ok (undefSym, 0) := by
  have h : ∃ c, (findDebugSymbol brokenTab [0x6d#8] none).2 = some c := Option.isSome_iff_exists.1 (by decide +kernel)
  obtain ⟨c, hc⟩ := h
  have h1 : (findDebugSymbol brokenTab [0x6d#8] (findDebugSymbol brokenTab [0x6d#8] none).2).1 = .ok (⟨1, 18, 0, 1, 0x40, 8⟩, 41) := by decide +kernel
  have h2 : (findDebugSymbol brokenTab [0x6e#8] (findDebugSymbol brokenTab [0x6d#8] none).2).1 = .ok (undefSym, 0) := by decide +kernel
  rw [hc] at h1 h2
  exact ⟨by decide +kernel, c, hc, h1, h2⟩

end Pstack.Props
