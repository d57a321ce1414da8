import Verif.Props.Args
import Verif.Props.Die
import Verif.Props.Expr
/-
A unit with functions that have parameters, and a frame: `C78` and `C79` apply to it.
-/
namespace Pstack.Props
open Pstack.Reader Pstack.Spec Pstack.Dwarf Pstack.Die Pstack.Args Pstack.Arch

local notation "Mem" => Python.Mem

/-! ### A unit with types and functions -/

def callRoot : DieEntry := ⟨⟨1, 0x11, true, [⟨0x11, 0x01, 0⟩]⟩, [.num 0x1000]⟩
/-- A base type: name, encoding, size. -/
def callBase (n : List Byte) (enc w : Nat) : DieEntry := ⟨⟨2, 0x24, false, [⟨3, 0x08, 0⟩, ⟨0x3e, 0x0b, 0⟩, ⟨0x0b, 0x0b, 0⟩]⟩, [.str n, .num enc, .num w]⟩
def callConst (o : Nat) : DieEntry := ⟨⟨3, 0x26, false, [⟨0x49, 0x11, 0⟩]⟩, [.num o]⟩
def callPtr (o : Nat) : DieEntry := ⟨⟨4, 0x0f, false, [⟨0x49, 0x11, 0⟩]⟩, [.num o]⟩
def callRestrict (o : Nat) : DieEntry := ⟨⟨5, 0x37, false, [⟨0x49, 0x11, 0⟩]⟩, [.num o]⟩
def callFun (c : Byte) : DieEntry := ⟨⟨6, 0x2e, true, [⟨3, 0x08, 0⟩]⟩, [.str [c]]⟩
/-- Parameters: name, type, and an expression, -/
def callParam (c : Byte) (o : Nat) (code : List Byte) : DieEntry := ⟨⟨7, 0x05, false, [⟨3, 0x08, 0⟩, ⟨0x49, 0x11, 0⟩, ⟨0x02, 0x18, 0⟩]⟩, [.str [c], .num o, .block code]⟩
def callVar (c : Byte) : DieEntry := ⟨⟨8, 0x34, false, [⟨3, 0x08, 0⟩]⟩, [.str [c]]⟩
/-- or a constant, -/
def callConstant (c : Byte) (o : Nat) (z : Int) : DieEntry := ⟨⟨9, 0x05, false, [⟨3, 0x08, 0⟩, ⟨0x49, 0x11, 0⟩, ⟨0x1c, 0x0d, 0⟩]⟩, [.str [c], .num o, .int z]⟩
/-- or nothing, -/
def callUnknown (c : Byte) (o : Nat) : DieEntry := ⟨⟨10, 0x05, false, [⟨3, 0x08, 0⟩, ⟨0x49, 0x11, 0⟩]⟩, [.str [c], .num o]⟩
/-- or a list, -/
def callListed (c : Byte) (o n : Nat) : DieEntry := ⟨⟨11, 0x05, false, [⟨3, 0x08, 0⟩, ⟨0x49, 0x11, 0⟩, ⟨0x02, 0x17, 0⟩]⟩, [.str [c], .num o, .num n]⟩
/-- or the index of a list. -/
def callIndex (c : Byte) (o n : Nat) : DieEntry := ⟨⟨12, 0x05, false, [⟨3, 0x08, 0⟩, ⟨0x49, 0x11, 0⟩, ⟨0x02, 0x22, 0⟩]⟩, [.str [c], .num o, .num n]⟩

def callDecls : List DieDecl := [callRoot.decl, (callBase [] 0 0).decl, (callConst 0).decl, (callPtr 0).decl, (callRestrict 0).decl, (callFun 0).decl, (callParam 0 0 []).decl, (callVar 0).decl,
  (callConstant 0 0 0).decl, (callUnknown 0 0).decl, (callListed 0 0 0).decl, (callIndex 0 0 0).decl]

def callInt : DieEntry := callBase [0x69, 0x6e, 0x74] 5 4
def callLong : DieEntry := callBase [0x6c, 0x6f, 0x6e, 0x67] 5 8
def callChar : DieEntry := callBase [0x63, 0x68, 0x61, 0x72] 6 1
def callUint : DieEntry := callBase [0x75, 0x69, 0x6e, 0x74] 7 4
def callLongDouble : DieEntry := callBase [0x6c, 0x64] 4 16

/-- `int f(int a, const char *b, long c, long d, int *e) { v; }` and `int g(long s, long x)`. -/
def callUnit : DieUnit := ⟨false, 4, 0, 8, [], 0, callDecls,
  ⟨callRoot, some (.leaf callInt (.leaf callLong (.leaf callChar (.leaf callUint (.leaf (callConst 35) (.leaf (callPtr 51) (.leaf (callPtr 20) (.leaf (callRestrict 53)
    (.node (callFun 0x66) (.leaf (callParam 0x61 20 [0x91, 0x6c]) (.leaf (callParam 0x62 53 [0x55]) (.leaf (callVar 0x76) (.leaf (callConstant 0x63 27 (-3)) (.leaf (callUnknown 0x64 27)
      (.leaf (callListed 0x65 55 0) .done))))))
    (.node (callFun 0x67) (.leaf (callParam 0x73 20 [0x0c, 0xec, 0x6f, 0, 0, 0x9f]) (.leaf (callIndex 0x78 27 0) .done))
    (.leaf callLongDouble .done)))))))))))⟩, []⟩

def callSections : Sections := ⟨encodeUnits [callUnit], encodeDecls callDecls, [], [], [], [], none, none⟩

def callKids : Forest (Nat × DieEntry) :=
  .leaf (62, callParam 0x61 20 [0x91, 0x6c]) (.leaf (69, callParam 0x62 53 [0x55]) (.leaf (75, callVar 0x76) (.leaf (78, callConstant 0x63 27 (-3)) (.leaf (83, callUnknown 0x64 27)
    (.leaf (87, callListed 0x65 55 0) .done)))))

def callTop : Forest (Nat × DieEntry) :=
  .leaf (20, callInt) (.leaf (27, callLong) (.leaf (35, callChar) (.leaf (43, callUint) (.leaf (51, callConst 35) (.leaf (53, callPtr 51) (.leaf (55, callPtr 20) (.leaf (57, callRestrict 53)
    (.node (59, callFun 0x66) callKids
    (.node (96, callFun 0x67) (.leaf (99, callParam 0x73 20 [0x0c, 0xec, 0x6f, 0, 0, 0x9f]) (.leaf (110, callIndex 0x78 27 0) .done))
    (.leaf (116, callLongDouble) .done))))))))))

theorem call_placed : callUnit.placed 0 = ⟨(11, callRoot), some callTop⟩ := by
  simp [callUnit, callTop, callKids, callRoot, callBase, callConst, callPtr, callRestrict, callFun, callParam, callVar, callConstant, callUnknown, callListed, callIndex, callInt, callLong,
    callChar, callUint, callLongDouble, DieUnit.sizes, DieUnit.rootPos, DieUnit.lengthField, DieUnit.header, DieUnit.offSize, DieUnit.placed, DieTree.place, Forest.place, Forest.encode, DieEntry.encode, encodeVals, formKind,
    FormKind.encode, encodeU_small, encodeS_small, leBytes_length]

def callAll : List (Nat × DieEntry) := [(11, callRoot), (20, callInt), (27, callLong), (35, callChar), (43, callUint), (51, callConst 35), (53, callPtr 51), (55, callPtr 20), (57, callRestrict 53),
  (59, callFun 0x66), (62, callParam 0x61 20 [0x91, 0x6c]), (69, callParam 0x62 53 [0x55]), (75, callVar 0x76), (78, callConstant 0x63 27 (-3)), (83, callUnknown 0x64 27), (87, callListed 0x65 55 0),
  (96, callFun 0x67), (99, callParam 0x73 20 [0x0c, 0xec, 0x6f, 0, 0, 0x9f]), (110, callIndex 0x78 27 0), (116, callLongDouble)]

theorem call_entries {uo : Nat} {x : DieUnit} {o : Nat} {e : DieEntry} : EntryIn [callUnit] uo x o e ↔ uo = 0 ∧ x = callUnit ∧ (o, e) ∈ callAll := by
  have hp : (callUnit.placed 0).all = callAll := by rw [call_placed]; rfl
  unfold EntryIn
  rw [placeUnits, placeUnits]
  constructor
  · rintro ⟨h1, h2⟩
    simp only [List.mem_cons, List.not_mem_nil, or_false, Prod.mk.injEq] at h1
    obtain ⟨rfl, rfl⟩ := h1
    rw [hp] at h2
    exact ⟨rfl, rfl, h2⟩
  · rintro ⟨rfl, rfl, h⟩
    exact ⟨by simp, by rw [hp]; exact h⟩

/-- What the attributes refer to are entries. -/
def callRef (a : AttrDecl) : AttrVal → Bool
  | .num n => !(0x11 ≤ a.form && a.form ≤ 0x15 || a.form == 0x10) || (callAll.any fun p => p.1 == n)
  | _ => true

theorem call_ok : InfoOk callSections [callUnit] ∧ RefsOk [callUnit] ∧ SectionsFit callSections := by
  refine ⟨⟨rfl, ?_, ?_, ?_, ?_⟩, ?_, ⟨by decide, by decide, by decide, by decide, (fun _ h => nomatch h), fun _ h => nomatch h⟩⟩
  · intro x hx
    simp only [List.mem_cons, List.not_mem_nil, or_false] at hx
    subst hx
    refine ⟨⟨by decide, (fun h => by revert h; decide), by decide, (fun h => by cases h), by decide, ?_, by decide, ?_⟩, ?_, by decide, (fun h => by cases h)⟩
    · intro a ha
      simp only [callUnit, callDecls, List.mem_cons, List.not_mem_nil, or_false] at ha
      rcases ha with rfl | rfl | rfl | rfl | rfl | rfl | rfl | rfl | rfl | rfl | rfl | rfl <;> refine ⟨by decide, by decide, ?_⟩ <;> intro b hb <;>
        simp only [callRoot, callBase, callConst, callPtr, callRestrict, callFun, callParam, callVar, callConstant, callUnknown, callListed, callIndex, List.mem_cons, List.not_mem_nil, or_false] at hb
      all_goals first
        | (subst hb; exact ⟨by decide, by decide, by decide⟩)
        | (rcases hb with rfl | rfl <;> exact ⟨by decide, by decide, by decide⟩)
        | (rcases hb with rfl | rfl | rfl <;> exact ⟨by decide, by decide, by decide⟩)
    · simp [callUnit, callDecls, callRoot, callBase, callConst, callPtr, callRestrict, callFun, callParam, callVar, callConstant, callUnknown, callListed, callIndex, callInt, callLong,
        callChar, callUint, callLongDouble, DieUnit.sizes, DieUnit.rootPos, DieUnit.lengthField, DieUnit.header, DieUnit.offSize, DieTree.WF, Forest.WF, ValsFit, AttrFits, DieTree.encode, Forest.encode,
        DieEntry.encode, encodeVals, formKind, FormKind.encode, FormKind.Fits, IsLocalRef, encodeU_small, encodeS_small, leBytes_length, GoodName]
    · simp [callUnit, callRoot, callBase, callConst, callPtr, callRestrict, callFun, callParam, callVar, callConstant, callUnknown, callListed, callIndex, callInt, callLong,
        callChar, callUint, callLongDouble, DieUnit.body, DieUnit.sizes, DieTree.encode, Forest.encode, DieUnit.header, DieUnit.offSize, DieEntry.encode, encodeVals, formKind, FormKind.encode, encodeU_small,
        encodeS_small, leBytes_length]
  · intro x hx
    simp only [List.mem_cons, List.not_mem_nil, or_false] at hx
    subst hx; exact ⟨[], by simp [callUnit, callSections]⟩
  · simp [callSections, encodeUnits, callUnit, callRoot, callBase, callConst, callPtr, callRestrict, callFun, callParam, callVar, callConstant, callUnknown, callListed, callIndex, callInt, callLong,
      callChar, callUint, callLongDouble, DieUnit.encode, DieUnit.body, DieUnit.sizes, DieUnit.lengthField, DieTree.encode, Forest.encode, DieUnit.header, DieUnit.offSize, DieEntry.encode, encodeVals, formKind,
      FormKind.encode, encodeU_small, encodeS_small, leBytes_length]
  · simp [callSections, encodeDecls, callDecls, callRoot, callBase, callConst, callPtr, callRestrict, callFun, callParam, callVar, callConstant, callUnknown, callListed, callIndex, DieDecl.encode,
      AttrDecl.encode, encodeU_small]
  · intro uo x o e he i a v o' ha hv hn hr
    obtain ⟨rfl, rfl, h⟩ := call_entries.1 he
    have hall : callAll.all (fun p => (p.2.decl.attrs.zip p.2.vals).all fun q => callRef q.1 q.2) = true := by decide +kernel
    rw [List.all_eq_true] at hall
    have h1 := hall _ h
    rw [List.all_eq_true] at h1
    have hz : (e.decl.attrs.zip e.vals)[i]? = some (a, v) := by rw [List.getElem?_zip_eq_some]; exact ⟨ha, hv⟩
    have h2 := h1 _ (List.mem_of_getElem? hz)
    obtain ⟨n, rfl, hr⟩ := hr
    have hn : o' = n := by rcases hr with ⟨_, h⟩ | ⟨_, h⟩ <;> omega
    have hf : ((decide (0x11 ≤ a.form) && decide (a.form ≤ 0x15)) || a.form == 0x10) = true := by
      rcases hr with ⟨⟨h1, h2⟩, _⟩ | ⟨h, _⟩
      · simp [h1, h2]
      · simp [h]
    simp only [callRef] at h2
    rw [hf] at h2
    simp only [Bool.not_true, Bool.false_or, List.any_eq_true, beq_iff_eq] at h2
    obtain ⟨p, hp, hpn⟩ := h2
    exact ⟨0, callUnit, p.2, call_entries.2 ⟨rfl, rfl, by rw [hn, ← hpn]; exact hp⟩⟩

/-! ### A frame -/

/-- "hi" at 0x5000, the number -7 (of 4 bytes) at 0x6fec, 0xfffffffe at 0x6ff0. -/
def callMem : Mem := fun a =>
  if a = 0x5000 then some 0x68 else if a = 0x5001 then some 0x69 else if a = 0x5002 then some 0
  else if a = 0x6fec then some 0xf9 else if a = 0x6fed ∨ a = 0x6fee ∨ a = 0x6fef then some 0xff
  else if a = 0x6ff0 then some 0xfe else if a = 0x6ff1 ∨ a = 0x6ff2 ∨ a = 0x6ff3 then some 0xff else none

def callRegs : Regs :=
  { user := fun u => if u = .rbp then 0x6fec#64 else if u = .rdi then 0x5000#64 else 0, st := fun _ => 0, xmm := fun _ => 0, mxcsr := 0, mxcrMask := 0,
    cwd := 0, swd := 0, ftw := 0, fop := 0, fpRip := 0, fpRdp := 0 }

def callEnv : Expr.Env := { mem := fun _ _ => .exc, regs := callRegs, cfa := 0x7000#64, frameBase := .ok 0x7000#64, paramRef := fun _ => .exc }

def callMachine : Machine :=
  { reg := fun r => if r = 6 then some 0x6fec#64 else if r = 5 then some 0x5000#64 else none, word := fun _ => none, cfa := 0x7000#64, frameBase := some 0x7000#64, reloc := 0 }

/-- The list of locations: in the register 6 for the first 16 bytes of the unit. -/
def callLocs : List LocEntry := [.pair 0 16 [0x56]]

def callState (pc : Nat) : FrameState := ⟨callMachine, callMem, pc, encodeList4 callLocs, []⟩
def callCtx (pc : Nat) : Ctx := ⟨callMem, callEnv, 0, BitVec.ofNat 64 pc, encodeList4 callLocs, [], fun _ => .exc, fun _ => [], []⟩

theorem call_frame {pc : Nat} (h : pc < 2 ^ 64) : FrameIs (callCtx pc) (callState pc) where
  mem := rfl
  machine := {
    reg := by
      intro r v h
      simp only [callState, callMachine] at h
      split at h
      · rename_i hr; subst hr; simp only [Option.some.injEq] at h; subst h; rfl
      · split at h
        · rename_i hr; subst hr; simp only [Option.some.injEq] at h; subst h; rfl
        · cases h
    word := by intro a v h; cases h
    cfa := rfl
    frameBase := by intro v h; simp only [callState, callMachine, Option.some.injEq] at h; subst h; rfl
    reloc := rfl }
  ip := by
    show (BitVec.ofNat 64 pc).toNat = 0 + pc
    rw [BitVec.toNat_ofNat]; omega
  loc := ⟨rfl, by show (encodeList4 callLocs).length < 2 ^ 64; decide⟩
  loclists := ⟨rfl, by show 0 < 2 ^ 64; decide⟩

theorem call_base : BaseAddress callSections callUnit 0x1000 := .inl ⟨0, rfl, ⟨_, _, rfl, rfl, .const (by decide)⟩, by decide⟩

theorem call_bases : BasesKnown callSections [callUnit] := by
  intro uo x h
  simp only [placeUnits, List.mem_cons, List.not_mem_nil, or_false, Prod.mk.injEq] at h
  obtain ⟨_, rfl⟩ := h
  exact ⟨_, call_base⟩

def callEntry (o : Nat) (e : DieEntry) : EntryRef := ⟨0, callUnit, o, e⟩

theorem call_at {p : Nat × DieEntry} (i : Nat) (h : callAll[i]? = some p) : (p.1, p.2) ∈ callAll := List.mem_of_getElem? h

theorem call_in {o : Nat} {e : DieEntry} (h : (o, e) ∈ callAll) : (callEntry o e).In [callUnit] := call_entries.2 ⟨rfl, rfl, h⟩

/-- What an entry says. -/
theorem call_number {o : Nat} {e : DieEntry} {name i n : Nat} (h : (o, e) ∈ callAll) (hf : e.find name = some i) (hn : AttrNumber callSections callUnit e i n) :
    NumberOf callSections [callUnit] (callEntry o e) name n := ⟨_, _, _, _, _, .own (call_in h) hf, hn⟩

theorem call_lacks {o : Nat} {e : DieEntry} {name : Nat} (h1 : e.find name = none) (h2 : e.find 0x31 = none) (h3 : e.find 0x47 = none) : Lacks [callUnit] (callEntry o e) name := .nowhere h1 h2 h3

theorem call_named {o : Nat} {e : DieEntry} {a : AttrDecl} {n : List Byte} (h : (o, e) ∈ callAll) (hf : e.find 3 = some 0) (ha : e.decl.attrs[0]? = some a) (hv : e.vals[0]? = some (.str n))
    (hs : a.form = 0x08) (hn : ∀ b ∈ n, b ≠ 0#8) : NamedAs callSections [callUnit] (callEntry o e) n := .named (.own (call_in h) hf) ha hv (.direct hs hn)

theorem call_type {o : Nat} {e : DieEntry} {a : AttrDecl} {i o' : Nat} {e' : DieEntry} (h : (o, e) ∈ callAll) (hf : e.find 0x49 = some i) (ha : e.decl.attrs[i]? = some a) (hv : e.vals[i]? = some (.num o'))
    (hs : a.form = 0x11) (h' : (o', e') ∈ callAll) : TypeOf [callUnit] (callEntry o e) (some (callEntry o' e')) :=
  .refers (.own (call_in h) hf) ha hv ⟨o', rfl, .inl ⟨by rw [hs]; unfold IsLocalRef; decide, (Nat.zero_add _).symm⟩⟩ (call_in h')

theorem call_char_name : NamedAs callSections [callUnit] (callEntry 35 callChar) (asciiText "char") :=
  call_named (n := asciiText "char") (call_at 3 rfl) rfl rfl rfl rfl (by decide +kernel)

theorem call_int {k : Knows} {z : Int} {bs : List Byte} (h : IntBytes 4 z bs) : ObjectText k callSections [callUnit] callMem (callEntry 20 callInt) bs (decimalText z) :=
  .base (enc := 5) (call_in (call_at 1 rfl)) rfl (call_number (i := 1) (call_at 1 rfl) rfl ⟨_, _, rfl, rfl, .const (by decide)⟩) (.signed (.inr (.inl rfl)) h)

theorem call_int_size : SizeIs callSections [callUnit] (callEntry 20 callInt) 4 := .says (call_number (i := 2) (call_at 1 rfl) rfl ⟨_, _, rfl, rfl, .const (by decide)⟩)

theorem call_stored : StoredAt callMem 0x6fec [0xf9, 0xff, 0xff, 0xff] := by
  intro i h
  rcases i with _ | _ | _ | _ | i
  · rfl
  · rfl
  · rfl
  · rfl
  · simp at h; omega

theorem call_string : CStrAt callMem 0x5000 [0x68, 0x69] where
  notNull := by decide
  bytes := by
    intro i h
    rcases i with _ | _ | i
    · rfl
    · rfl
    · simp at h; omega
  noZero := by decide
  zero := rfl
  fits := by decide

def callA : EntryRef := callEntry 62 (callParam 0x61 20 [0x91, 0x6c])
def callB : EntryRef := callEntry 69 (callParam 0x62 53 [0x55])
def callC : EntryRef := callEntry 78 (callConstant 0x63 27 (-3))
def callD : EntryRef := callEntry 83 (callUnknown 0x64 27)
def callE : EntryRef := callEntry 87 (callListed 0x65 55 0)

theorem call_minus_seven : IntBytes 4 (-7) [0xf9, 0xff, 0xff, 0xff] := ⟨by decide, by decide, by decide⟩

theorem call_a {k : Knows} (hk : k.alias 0x24 = false) (he : k.exact callMachine (.fbreg (-20))) (pc : Nat) :
    ArgText k callSections [callUnit] (callState pc) callA ([0x61] ++ (asciiText "=" ++ decimalText (-7))) := by
  refine ArgText.object (r := callEntry 20 callInt) (q := callEntry 20 callInt) (code := [0x91, 0x6c]) (pl := .memory 0x6fec)
    (call_named (call_at 10 rfl) rfl rfl rfl rfl (by decide)) (call_type (call_at 10 rfl) rfl rfl rfl rfl (call_at 1 rfl))
    (.expression (.own (call_in (call_at 10 rfl)) rfl) rfl rfl (.inr (.inr rfl))) ?_ (.plain (call_in (call_at 1 rfl)) hk) call_int_size (.memory (by decide) (.inr ⟨call_stored, rfl⟩)) (call_int call_minus_seven)
  have := CodeSays.memory (k := k) (m := callMachine) (e := .fbreg (-20)) (a := 0x6fec) (by unfold Spec.Expr.WF; decide) he (by decide)
  have he : (Spec.Expr.fbreg (-20)).encode = [0x91#8, 0x6c#8] := by
    unfold Spec.Expr.encode; rw [encodeS_small _ (by decide)]; rfl
  rw [he] at this
  exact this

theorem call_ptr_size {o o' : Nat} (h : (o, callPtr o') ∈ callAll) : SizeIs callSections [callUnit] (callEntry o (callPtr o')) 8 := .silent (call_lacks rfl rfl rfl)

theorem call_b {k : Knows} (h1 : k.alias 0x24 = false) (h2 : k.alias 0x26 = true) (h3 : k.alias 0x0f = false) (hh : k.held 8 0x5000) (pc : Nat) :
    ArgText k callSections [callUnit] (callState pc) callB ([0x62] ++ (asciiText "=" ++ (addressText 0x5000 ++ (asciiText " \"" ++ ([0x68, 0x69] ++ asciiText "\""))))) := by
  refine ArgText.object (r := callEntry 53 (callPtr 51)) (q := callEntry 53 (callPtr 51)) (code := [0x55]) (pl := .register 0x5000)
    (call_named (call_at 11 rfl) rfl rfl rfl rfl (by decide)) (call_type (call_at 11 rfl) rfl rfl rfl rfl (call_at 6 rfl))
    (.expression (.own (call_in (call_at 11 rfl)) rfl) rfl rfl (.inr (.inr rfl))) (.register (r := 5) (by decide) rfl) (.plain (call_in (call_at 6 rfl)) h3) (call_ptr_size (call_at 6 rfl))
    (.register hh rfl) ?_
  exact .string (call_in (call_at 6 rfl)) rfl (n := 0x5000) ⟨by decide, by decide⟩ (call_type (call_at 6 rfl) rfl rfl rfl rfl (call_at 5 rfl))
    (.alias (call_in (call_at 5 rfl)) h2 (call_type (call_at 5 rfl) rfl rfl rfl rfl (call_at 3 rfl)) (.plain (call_in (call_at 3 rfl)) h1)) call_char_name call_string

theorem call_c (k : Knows) (pc : Nat) : ArgText k callSections [callUnit] (callState pc) callC ([0x63] ++ (asciiText "=" ++ decimalText (-3))) :=
  .constant (call_named (call_at 13 rfl) rfl rfl rfl rfl (by decide)) (call_type (call_at 13 rfl) rfl rfl rfl rfl (call_at 2 rfl)) (call_lacks rfl rfl rfl) (.own (call_in (call_at 13 rfl)) rfl) rfl rfl
    (.signed (.inl rfl) (by decide) (by decide))

theorem call_d (k : Knows) (pc : Nat) : ArgText k callSections [callUnit] (callState pc) callD [0x64] :=
  .unknown (call_named (call_at 14 rfl) rfl rfl rfl rfl (by decide)) (call_type (call_at 14 rfl) rfl rfl rfl rfl (call_at 2 rfl)) (call_lacks rfl rfl rfl) (call_lacks rfl rfl rfl)

theorem call_list {k : Knows} (h : k.listed 4 0x1000 callLocs) (pc : Nat) : LocListOf k callSections [callUnit] (callState pc) callE 0x1000 callLocs := by
  refine ⟨_, _, _, _, _, _, 0, [], .own (call_in (call_at 15 rfl)) rfl, rfl, rfl, ⟨_, _, rfl, rfl, .offset rfl (by decide)⟩, call_base, rfl, ?_, h, ?_⟩
  · show FitsAt 0 _ _; exact ⟨by decide, by decide, by decide, by decide, by decide, trivial⟩
  · rw [List.append_nil]; rfl

theorem call_e {k : Knows} (h1 : k.alias 0x24 = false) (h3 : k.alias 0x0f = false) (h : k.listed 4 0x1000 callLocs) (hh : k.held 8 0x6fec) {pc : Nat} (hpc : 0x1000 ≤ pc ∧ pc < 0x1010) :
    ArgText k callSections [callUnit] (callState pc) callE ([0x65] ++ (asciiText "=" ++ (addressText 0x6fec ++ (asciiText "->" ++ decimalText (-7))))) := by
  refine ArgText.object (r := callEntry 55 (callPtr 20)) (q := callEntry 55 (callPtr 20)) (code := [0x56]) (pl := .register 0x6fec)
    (call_named (call_at 15 rfl) rfl rfl rfl rfl (by decide)) (call_type (call_at 15 rfl) rfl rfl rfl rfl (call_at 7 rfl))
    (.listed (call_list h pc) ?_) (.register (r := 6) (by decide) rfl) (.plain (call_in (call_at 7 rfl)) h3) (call_ptr_size (call_at 7 rfl))
    (.register hh rfl) ?_
  · show locate pc _ _ = _
    simp only [callLocs, locate]
    rw [if_pos (by omega)]
  exact .object (call_in (call_at 7 rfl)) rfl (n := 0x6fec) ⟨by decide, by decide⟩ (by decide) (call_type (call_at 7 rfl) rfl rfl rfl rfl (call_at 1 rfl)) (.plain (call_in (call_at 1 rfl)) h1)
    (nm := [0x69, 0x6e, 0x74]) (call_named (call_at 1 rfl) rfl rfl rfl rfl (by decide)) (by decide +kernel) call_int_size (.inr ⟨call_stored, rfl⟩) (call_int call_minus_seven)

theorem call_listed : knowsSome.listed 4 0x1000 callLocs := by
  unfold knowsSome
  simp only
  rw [if_neg (by decide)]
  exact ⟨.inr (by decide), by decide, trivial⟩

/-- The arguments of `f`, at the address 0x1004. -/
theorem call_args : ArgTexts knowsSome callSections [callUnit] (callState 0x1004) (parameters 0 callUnit callKids)
    [asciiText "a=-7", asciiText "b=0x5000 \"hi\"", asciiText "c=-3", asciiText "d", asciiText "e=0x6fec->-7"] := by
  have h1 : asciiText "a=-7" = [0x61] ++ (asciiText "=" ++ decimalText (-7)) := by decide +kernel
  have h2 : asciiText "b=0x5000 \"hi\"" = [0x62] ++ (asciiText "=" ++ (addressText 0x5000 ++ (asciiText " \"" ++ ([0x68, 0x69] ++ asciiText "\"")))) := by decide +kernel
  have h3 : asciiText "c=-3" = [0x63] ++ (asciiText "=" ++ decimalText (-3)) := by decide +kernel
  have h4 : asciiText "d" = [0x64] := by decide +kernel
  have h5 : asciiText "e=0x6fec->-7" = [0x65] ++ (asciiText "=" ++ (addressText 0x6fec ++ (asciiText "->" ++ decimalText (-7)))) := by decide +kernel
  rw [h1, h2, h3, h4, h5]
  exact .cons (call_a rfl trivial _) (.cons (call_b (k := knowsSome) rfl rfl rfl ⟨rfl, by decide⟩ _) (.cons (call_c _ _) (.cons (call_d _ _) (.cons (call_e (k := knowsSome) rfl rfl call_listed ⟨rfl, by decide⟩ (by decide)) .nil))))

theorem places_differ {α : Type} : ∀ {l : List (Nat × α)}, l.Pairwise (fun a b => a.1 ≠ b.1) → ∀ {o : Nat} {a b : α}, (o, a) ∈ l → (o, b) ∈ l → a = b
  | [], _, _, _, _, h, _ => nomatch h
  | x :: l, hp, o, a, b, h1, h2 => by
      rw [List.pairwise_cons] at hp
      rcases List.mem_cons.1 h1 with rfl | h1'
      · rcases List.mem_cons.1 h2 with h2 | h2
        · injection h2 with _ h2; exact h2.symm
        · exact absurd rfl (hp.1 (o, b) h2)
      · rcases List.mem_cons.1 h2 with rfl | h2
        · exact absurd rfl (hp.1 (o, a) h1')
        · exact places_differ hp.2 h1' h2

/-- The program finds the entries. -/
theorem call_found {o : Nat} {e : DieEntry} (h : (o, e) ∈ callAll) : ∃ y s cl, infoOffsetToDIE callSections o IState.empty = .ok (y, s) ∧ IHistory callSections [callUnit] cl ∧ cl.Holds callSections y ∧
    cl.st = s ∧ ∀ p : EntryRef, IsEntry callSections [callUnit] y p.uo p.x p.o p.e → p = callEntry o e := by
  obtain ⟨y, s, h1, h2, h3, h4⟩ := C56_find call_ok.1 call_ok.2.1 .start (call_in h)
  refine ⟨y, s, _, h1, h3, h4, rfl, ?_⟩
  rintro ⟨uo, x, o', e'⟩ hp
  have ho : o' = o := hp.2.1.symm.trans h2.2.1
  subst ho
  obtain ⟨rfl, rfl, he⟩ := call_entries.1 hp.2.2
  have := places_differ (by decide) he h
  subst this
  rfl

/-- `C79_arguments_partial` applies: the arguments of the function are shown as `a=-7, b=0x5000 "hi", c=-3, d, e=0x6fec->-7`. -/
theorem C79_example : ∃ y s, infoOffsetToDIE callSections 59 IState.empty = .ok (y, s) ∧ ∃ m, ∀ fuel rounds depth, m ≤ fuel → m ≤ rounds → m ≤ depth →
    ∃ s', argsText callSections fuel rounds depth 7 (callCtx 0x1004) (some y) s = .ok (asciiText "a=-7, b=0x5000 \"hi\", c=-3, d, e=0x6fec->-7", s') := by
  obtain ⟨y, s, cl, h1, h3, h4, rfl, h5⟩ := call_found (call_at 9 rfl)
  refine ⟨y, _, h1, ?_⟩
  obtain ⟨uo, x, o, e, g1, g2⟩ := C79_arguments_partial call_ok.1 call_ok.2.2 call_ok.2.1 h3 call_bases h4
  cases h5 ⟨uo, x, o, e⟩ g1
  have ht : asciiText "a=-7, b=0x5000 \"hi\", c=-3, d, e=0x6fec->-7" =
      argumentText [asciiText "a=-7", asciiText "b=0x5000 \"hi\"", asciiText "c=-3", asciiText "d", asciiText "e=0x6fec->-7"] := by decide +kernel
  rw [ht]
  refine g2 (callCtx 0x1004) (callState 0x1004) callKids _ (call_frame (by decide)) ?_ call_args
  rw [call_placed]
  exact .under (.afterLeaf (.afterLeaf (.afterLeaf (.afterLeaf (.afterLeaf (.afterLeaf (.afterLeaf (.afterLeaf .node))))))))

/-- `C79_not_absent` applies at the address 0x2000: the last argument is shown as "e=(null)". -/
theorem C79_absent_example : ∃ y s, infoOffsetToDIE callSections 87 IState.empty = .ok (y, s) ∧ ∃ m, ∀ fuel rounds depth, m ≤ fuel → m ≤ rounds → m ≤ depth →
    ∃ s', argText callSections fuel rounds depth (callCtx 0x2000) y s = .ok (asciiText "e=(null)", s') := by
  obtain ⟨y, s, cl, h1, h3, h4, rfl, h5⟩ := call_found (call_at 15 rfl)
  refine ⟨y, _, h1, ?_⟩
  obtain ⟨p, g1, g2⟩ := C79_not_absent call_ok.1 call_ok.2.2 call_ok.2.1 h3 h4
  cases h5 p g1
  have ht : asciiText "e=(null)" = [0x65] ++ (asciiText "=" ++ asciiText "(null)") := by decide +kernel
  rw [ht]
  exact g2 (callCtx 0x2000) (callState 0x2000) _ (callEntry 55 (callPtr 20)) (callEntry 55 (callPtr 20)) 8 0x1000 callLocs (call_frame (by decide))
    (call_named (call_at 15 rfl) rfl rfl rfl rfl (by decide)) (call_type (call_at 15 rfl) rfl rfl rfl rfl (call_at 7 rfl)) (.plain (call_in (call_at 7 rfl)) rfl) (call_ptr_size (call_at 7 rfl))
    (call_list call_listed _) (by decide)

/-- `C79_not_computed` applies to the first argument of `g`, whose value is 0x6fec: shown is "s=-7". -/
theorem C79_computed_example : ∃ y s, infoOffsetToDIE callSections 99 IState.empty = .ok (y, s) ∧ ∃ m, ∀ fuel rounds depth, m ≤ fuel → m ≤ rounds → m ≤ depth →
    ∃ s', argText callSections fuel rounds depth (callCtx 0x2000) y s = .ok (asciiText "s=-7", s') := by
  obtain ⟨y, s, cl, h1, h3, h4, rfl, h5⟩ := call_found (call_at 17 rfl)
  refine ⟨y, _, h1, ?_⟩
  obtain ⟨p, g1, g2⟩ := C79_not_computed call_ok.1 call_ok.2.2 call_ok.2.1 h3 call_bases h4
  cases h5 p g1
  have ht : asciiText "s=-7" = [0x73] ++ (asciiText "=" ++ decimalText (-7)) := by decide +kernel
  rw [ht]
  exact g2 (callCtx 0x2000) (callState 0x2000) _ (callEntry 20 callInt) (callEntry 20 callInt) 4 (.const4u 0x6fec) 0x6fec _ _ (call_frame (by decide))
    (call_named (call_at 17 rfl) rfl rfl rfl rfl (by decide)) (call_type (call_at 17 rfl) rfl rfl rfl rfl (call_at 1 rfl)) (.plain (call_in (call_at 1 rfl)) rfl) call_int_size
    (.expression (.own (call_in (call_at 17 rfl)) rfl) rfl rfl (.inr (.inr rfl))) (by unfold Spec.Expr.WF; decide) trivial rfl (by decide) call_stored rfl (call_int call_minus_seven)

/-- `C79_not_index` applies to the second argument of `g`. -/
theorem C79_index_example : ∃ y s, infoOffsetToDIE callSections 110 IState.empty = .ok (y, s) ∧ ∃ m, ∀ fuel rounds depth, m ≤ fuel →
    argText callSections fuel rounds depth (callCtx 0x2000) y s = .exc := by
  obtain ⟨y, s, cl, h1, h3, h4, rfl, h5⟩ := call_found (call_at 18 rfl)
  refine ⟨y, _, h1, ?_⟩
  obtain ⟨p, g1, g2⟩ := C79_not_index call_ok.1 call_ok.2.2 call_ok.2.1 h3 call_bases h4
  cases h5 p g1
  exact g2 (callCtx 0x2000) _ (callEntry 27 callLong) _ _ _ _ _ _ (call_named (call_at 18 rfl) rfl rfl rfl rfl (by decide)) (call_type (call_at 18 rfl) rfl rfl rfl rfl (call_at 2 rfl))
    (.own (call_in (call_at 18 rfl)) rfl) rfl rfl

/-- `C78_value_partial` applies to the number -7, `C78_register_partial` to the pointer to it, -/
theorem C78_example (float : List Byte → List Byte) : (∃ y s, infoOffsetToDIE callSections 20 IState.empty = .ok (y, s) ∧ ∃ m, ∀ fuel rounds depth, m ≤ fuel → m ≤ rounds → m ≤ depth →
      ∃ s', valueText callSections fuel rounds callMem float depth 0x6fec false (some y) s = .ok (asciiText "-7", s')) ∧
    (∃ y s, infoOffsetToDIE callSections 55 IState.empty = .ok (y, s) ∧ ∃ m, ∀ fuel rounds depth, m ≤ fuel → m ≤ rounds → m ≤ depth →
      ∃ s', valueText callSections fuel rounds callMem float depth 0x6fec true (some y) s = .ok (asciiText "0x6fec->-7", s')) := by
  constructor
  · obtain ⟨y, s, cl, h1, h3, h4, rfl, h5⟩ := call_found (call_at 1 rfl)
    refine ⟨y, _, h1, ?_⟩
    obtain ⟨p, g1, g2⟩ := C78_value_partial call_ok.1 call_ok.2.2 call_ok.2.1 h3 h4
    cases h5 p g1
    exact g2 float callMem (callEntry 20 callInt) 4 _ (decimalText (-7)) 0x6fec (.plain (call_in (call_at 1 rfl)) rfl) call_int_size (by decide) (.inr ⟨call_stored, rfl⟩) (call_int call_minus_seven)
  · obtain ⟨y, s, cl, h1, h3, h4, rfl, h5⟩ := call_found (call_at 7 rfl)
    refine ⟨y, _, h1, ?_⟩
    obtain ⟨p, g1, g2⟩ := C78_register_partial call_ok.1 call_ok.2.2 call_ok.2.1 h3 h4
    cases h5 p g1
    have ht : asciiText "0x6fec->-7" = addressText 0x6fec ++ (asciiText "->" ++ decimalText (-7)) := by decide +kernel
    rw [ht]
    refine g2 float callMem (callEntry 55 (callPtr 20)) _ 0x6fec (.plain (call_in (call_at 7 rfl)) rfl) (call_ptr_size (call_at 7 rfl)) (by decide) ?_
    exact .object (call_in (call_at 7 rfl)) rfl (n := 0x6fec) ⟨by decide, by decide⟩ (by decide) (call_type (call_at 7 rfl) rfl rfl rfl rfl (call_at 1 rfl)) (.plain (call_in (call_at 1 rfl)) rfl)
      (nm := [0x69, 0x6e, 0x74]) (call_named (call_at 1 rfl) rfl rfl rfl rfl (by decide)) (by decide +kernel) call_int_size (.inr ⟨call_stored, rfl⟩) (call_int call_minus_seven)

theorem call_stored_uint : StoredAt callMem 0x6ff0 (leBytes 4 0xfffffffe) := by
  intro i h
  rcases i with _ | _ | _ | _ | i
  · rfl
  · rfl
  · rfl
  · rfl
  · exact absurd h (by rw [leBytes_length]; omega)

/-- `C78_not_unsigned` to the unsigned number 0xfffffffe, which is shown as -2, -/
theorem C78_unsigned_example (float : List Byte → List Byte) : ∃ y s, infoOffsetToDIE callSections 43 IState.empty = .ok (y, s) ∧ ∃ m, ∀ fuel rounds depth, m ≤ fuel → m ≤ rounds → m < depth →
      ∃ s', valueText callSections fuel rounds callMem float depth 0x6ff0 false (some y) s = .ok (asciiText "-2", s') := by
  obtain ⟨y, s, cl, h1, h3, h4, rfl, h5⟩ := call_found (call_at 4 rfl)
  refine ⟨y, _, h1, ?_⟩
  obtain ⟨p, g1, g2⟩ := C78_not_unsigned call_ok.1 call_ok.2.2 call_ok.2.1 h3 h4
  cases h5 p g1
  exact g2 float callMem (callEntry 43 callUint) 4 0xfffffffe _ 0x6ff0 (.plain (call_in (call_at 4 rfl)) rfl) rfl (call_number (i := 1) (call_at 4 rfl) rfl ⟨_, _, rfl, rfl, .const (by decide)⟩)
    (.says (call_number (i := 2) (call_at 4 rfl) rfl ⟨_, _, rfl, rfl, .const (by decide)⟩)) (.inr (.inl rfl)) (by decide) call_stored_uint ⟨by decide, rfl⟩ (by decide)

/-- and the others to these types: a register that is 0 or has 2 to the 32 in it, memory that is not there, a restrict pointer, a long double. -/
theorem C78_others_example (float : List Byte → List Byte) : (∃ y s, infoOffsetToDIE callSections 20 IState.empty = .ok (y, s) ∧ ∃ m, ∀ fuel rounds depth, m ≤ fuel → m ≤ rounds → m < depth →
      (∃ s', valueText callSections fuel rounds callMem float depth 0 true (some y) s = .ok (asciiText "(null)", s')) ∧
      (∃ s', valueText callSections fuel rounds callMem float depth 0x100000000 true (some y) s = .ok (asciiText "4294967296", s')) ∧
      (∃ s', valueText callSections fuel rounds callMem float depth 0x9000 false (some y) s = .ok (asciiText "0", s'))) ∧
    (∃ y s, infoOffsetToDIE callSections 57 IState.empty = .ok (y, s) ∧ ∃ m, ∀ fuel rounds depth, m ≤ fuel → m ≤ rounds → m < depth →
      ∃ s', valueText callSections fuel rounds callMem float depth 0x6fe0 false (some y) s = .ok (asciiText "<unprintable type >", s')) ∧
    (∃ y s, infoOffsetToDIE callSections 116 IState.empty = .ok (y, s) ∧ ∃ m, ∀ fuel rounds depth, m ≤ fuel → m ≤ rounds → m < depth →
      ∃ s', valueText callSections fuel rounds callMem float depth 0x6fe0 false (some y) s = .ok ([], s')) := by
  refine ⟨?_, ?_, ?_⟩
  · obtain ⟨y, s, cl, h1, h3, h4, rfl, h5⟩ := call_found (call_at 1 rfl)
    refine ⟨y, _, h1, ?_⟩
    obtain ⟨p, a1, a2⟩ := C78_not_zero call_ok.1 call_ok.2.1 h3 h4
    obtain ⟨p', b1, b2⟩ := C78_not_width call_ok.1 call_ok.2.2 call_ok.2.1 h3 h4
    obtain ⟨p'', c1, c2⟩ := C78_not_readable call_ok.1 call_ok.2.2 call_ok.2.1 h3 h4
    cases h5 p a1; cases h5 p' b1; cases h5 p'' c1
    have hr : Resolves knowsSome [callUnit] (some (callEntry 20 callInt)) (some (callEntry 20 callInt)) := .plain (call_in (call_at 1 rfl)) rfl
    have he : NumberOf callSections [callUnit] (callEntry 20 callInt) 0x3e 5 := call_number (i := 1) (call_at 1 rfl) rfl ⟨_, _, rfl, rfl, .const (by decide)⟩
    obtain ⟨m1, k1⟩ := a2 float callMem _ hr
    obtain ⟨m2, k2⟩ := b2 float callMem _ 0x100000000 hr rfl he (by decide)
    obtain ⟨m3, k3⟩ := c2 float callMem _ 4 0x9000 hr rfl he call_int_size (.inr (.inl rfl)) (by decide) rfl
    refine ⟨m1 + m2 + m3, fun fuel rounds depth q1 q2 q3 => ⟨k1 _ _ _ (by omega) (by omega) (by omega), ?_, k3 _ _ _ (by omega) (by omega) (by omega)⟩⟩
    exact k2 _ _ _ (by omega) (by omega) (by omega)
  · obtain ⟨y, s, cl, h1, h3, h4, rfl, h5⟩ := call_found (call_at 8 rfl)
    refine ⟨y, _, h1, ?_⟩
    obtain ⟨p, g1, g2⟩ := C78_not_restrict call_ok.1 call_ok.2.2 call_ok.2.1 h3 h4
    cases h5 p g1
    exact g2 float callMem [] 0 0x6fe0 (.inl rfl) (.silent (call_lacks rfl rfl rfl)) (.anonymous (call_lacks rfl rfl rfl)) (by decide)
  · obtain ⟨y, s, cl, h1, h3, h4, rfl, h5⟩ := call_found (call_at 19 rfl)
    refine ⟨y, _, h1, ?_⟩
    obtain ⟨p, g1, g2⟩ := C78_not_long_double call_ok.1 call_ok.2.2 call_ok.2.1 h3 h4
    cases h5 p g1
    exact g2 float callMem (callEntry 116 callLongDouble) 16 0x6fe0 (.plain (call_in (call_at 19 rfl)) rfl) rfl (call_number (i := 1) (call_at 19 rfl) rfl ⟨_, _, rfl, rfl, .const (by decide)⟩)
      (.says (call_number (i := 2) (call_at 19 rfl) rfl ⟨_, _, rfl, rfl, .const (by decide)⟩)) (by decide) (by decide) (by decide) (by decide)

end Pstack.Props
