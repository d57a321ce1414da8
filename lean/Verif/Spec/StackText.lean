import Verif.Spec.DieName
import Verif.Spec.Args
import Verif.Spec.Lines
/-
The text of a stack: for each frame the functions that are inlined where it is, the innermost first, and then the function itself; each with the place in its source.
-/
namespace Pstack.Spec
open Pstack.Die

/-- A line of a source file. -/
structure SourceLine where
  file : List Byte
  line : Int

def SourceLine.text (p : SourceLine) : List Byte := asciiText " at " ++ (p.file ++ (asciiText ":" ++ decimalText p.line))

/-- A number in 16 hexadecimal digits, and in as many as it takes. -/
def hex16 (n : Nat) : List Byte := (List.range 16).map (fun i => BitVec.ofNat 8 (Nat.digitChar (n / 16 ^ (15 - i) % 16)).toNat)
def hexDigitText (n : Nat) : List Byte := asciiText (String.ofList (Nat.toDigits 16 n))

/-- The number of a frame, in a column two wide. -/
def frameNumber (n : Nat) : List Byte := asciiText "#" ++ (decimalText n ++ ((if n < 10 then asciiText " " else []) ++ asciiText " "))

/-! ### Inlined functions -/

/-- The files of the unit are those of this line table: the root says where it is (0x10, DW_AT_stmt_list). -/
def LinesOf (d : Sections) (sec : List Byte) (x : DieUnit) (t : LineTable) : Prop :=
  isUnitTag x.tree.root.decl.tag ∧ t.WF d.lineStr d.str ∧ (5 ≤ t.version → t.fmt64 = x.fmt64 ∧ 3 ≤ x.version) ∧
    ∃ i a v n rest, x.tree.root.find 0x10 = some i ∧ x.tree.root.decl.attrs[i]? = some a ∧ x.tree.root.vals[i]? = some v ∧ HasInt x a v (Int.ofNat n) ∧ sec.drop n = t.encode ++ rest

/-- The signed number of an attribute, which may be inherited. -/
def IntOf (xs : List DieUnit) (p : EntryRef) (name : Nat) (z : Int) : Prop :=
  ∃ uo x o e i a v, Inherits xs name p.uo p.o p.e (some (uo, x, o, e, i)) ∧ e.decl.attrs[i]? = some a ∧ e.vals[i]? = some v ∧ HasInt x a v z

/-- Where an inlined function is called: the file (0x58, DW_AT_call_file) and line (0x59, DW_AT_call_line). In detail, names of files are shown with their directories. -/
def CalledAt (xs : List DieUnit) (t : LineTables) (detail : Bool) (p : EntryRef) (s : SourceLine) : Prop :=
  ∃ n : Nat, ∃ f dir, IntOf xs p 0x58 (Int.ofNat n) ∧ t.file n = some f ∧ t.dirNames[f.dir]? = some dir ∧ s.file = (if detail then dir ++ (asciiText "/" ++ f.name) else f.name) ∧
    IntOf xs p 0x59 s.line ∧ -(2 ^ 31) ≤ s.line ∧ s.line < 2 ^ 31

/-- An inlined function: its name, and where it is called. -/
structure InlinedFn where
  name : List Byte
  call : SourceLine

/-- Inlined functions, the outermost first, are these. -/
inductive InlinedAs (d : Sections) (xs : List DieUnit) (t : LineTables) (detail : Bool) (uo : Nat) (x : DieUnit) : List (Nat × DieEntry) → List InlinedFn → Prop
  | nil : InlinedAs d xs t detail uo x [] []
  | cons {a as l nm i is} : DeclaredAs d xs uo x a.1 a.2 l nm → (∀ p ∈ l, p.1 ≠ 0x17) → i.name = qualified l nm → CalledAt xs t detail ⟨uo, x, a.1, a.2⟩ i.call → InlinedAs d xs t detail uo x as is →
      InlinedAs d xs t detail uo x (a :: as) (i :: is)

/-- A line for each, the innermost first. That is where the frame is; the others are where they call it. -/
def inlinedLines (no : Nat) (here : SourceLine) : List InlinedFn → List Byte
  | [] => []
  | i :: is => (frameNumber no ++ (asciiText "inlined            in " ++ (i.name ++ (here.text ++ asciiText "\n")))) ++ inlinedLines no i.call is

/-- And the function is where it calls the outermost. -/
def outermost (here : SourceLine) : List InlinedFn → SourceLine
  | [] => here
  | i :: is => outermost i.call is

/-! ### Frames -/

/-- A frame. The program counter; whether a signal is returned from there; how it was found; the object (if any), the address in it that is looked up, and what is added to addresses in it; the
function and the symbol there, if there are; the place in the source, if it is known. -/
structure FrameFacts where
  pc : BitVec 64
  trampoline : Bool
  mechanism : List Byte
  object : Option (List Byte)
  addr : BitVec 64
  reloc : BitVec 64
  fn : Option EntryRef
  sym : Option (BitVec 64 × List Byte)
  source : Option SourceLine

/-- What is shown: whether positions in sources are; whether functions are named after what the debug information says of them; whether arguments are; whether in detail. -/
structure ShowWhat where
  sources : Bool
  functions : Bool
  arguments : Bool
  detail : Bool

/-- The line for the function. -/
def functionLine (w : ShowWhat) (no : Nat) (f : FrameFacts) (object name args : List Byte) (offset : Option Nat) (src : Option SourceLine) : List Byte :=
  frameNumber no ++ (asciiText "0x" ++ (hex16 f.pc.toNat ++ (asciiText " in " ++ (name ++ (asciiText "(" ++ (args ++ (asciiText ")" ++
    ((match offset with | some n => asciiText "+" ++ decimalText n | none => []) ++ (asciiText " in " ++ (object ++
    ((if w.detail then asciiText "@0x" ++ hexDigitText (f.pc - f.reloc).toNat else []) ++
    ((match src with | some p => p.text | none => []) ++
    ((if w.detail then asciiText " via " ++ f.mechanism else []) ++ asciiText "\n")))))))))))))

/-- A mark for signal handlers. -/
def FrameFacts.mark (f : FrameFacts) : List Byte := if f.trampoline then asciiText "*" else []

/-- The name that is shown, given that of the function. If it has none the symbol is shown instead, with a mark that says whether there is debug information. -/
def FrameFacts.shownName (f : FrameFacts) (n : List Byte) : List Byte :=
  if n = [] then
    match f.sym with
    | some (_, m) => m ++ (f.mark ++ (if f.fn.isSome then asciiText "%" else asciiText "!"))
    | none => asciiText "<unknown>" ++ f.mark
  else n ++ f.mark

/-- The function, if it is looked at. -/
def FrameFacts.looked (f : FrameFacts) (w : ShowWhat) : Option EntryRef := if w.functions then f.fn else none

/-- The name of a function. -/
inductive FnName (d : Sections) (xs : List DieUnit) : Option EntryRef → List Byte → Prop
  | none : FnName d xs none []
  | declared {p l nm} : DeclaredAs d xs p.uo p.x p.o p.e l nm → (∀ q ∈ l, q.1 ≠ 0x17) → FnName d xs (some p) (qualified l nm)

/-- How far the address is from the start of the function, or, if that is not known, from the value of the symbol. -/
inductive FnOffset (d : Sections) (xs : List DieUnit) (f : FrameFacts) : Option EntryRef → Option Nat → Prop
  | start {p n} : StartsAt d xs p.uo p.x p.o p.e n → n ≤ f.addr.toNat → f.addr.toNat - n < 2 ^ 64 - 1 → FnOffset d xs f (some p) (some (f.addr.toNat - n))
  | symbol {r v m} : (∀ p, r = some p → NoStart xs p.uo p.o p.e) → f.sym = some (v, m) → v.toNat ≤ f.addr.toNat → f.addr.toNat - v.toNat < 2 ^ 64 - 1 →
      FnOffset d xs f r (some (f.addr.toNat - v.toNat))
  | unknown {r} : (∀ p, r = some p → NoStart xs p.uo p.o p.e) → f.sym = none → FnOffset d xs f r none

/-- The arguments of a function. -/
inductive FnArgs (k : Knows) (d : Sections) (xs : List DieUnit) (w : ShowWhat) (fs : FrameState) : Option EntryRef → List Byte → Prop
  | none : FnArgs k d xs w fs none []
  | hidden {r} : w.arguments = false → FnArgs k d xs w fs r []
  | arguments {p F ts} : w.arguments → (p.x.placed p.uo).KidsOf (p.o, p.e) F → ArgTexts k d xs fs (parameters p.uo p.x F) ts → FnArgs k d xs w fs (some p) (argumentText ts)

/-- The program of a line table is one that is understood. -/
def LineTable.Plain (t : LineTable) (op : LineParams → LineOp → Prop) : Prop :=
  t.params.maxOps = 1 ∧ (∀ o ∈ t.prog, o.WF t.params t.tables.fileLimit ∧ op t.params o) ∧ (t.prog = [] ∨ 1 < t.tables.fileLimit) ∧ t.body.length < if t.fmt64 then 2 ^ 64 else 0xfffffff0

/-- The functions inlined at the address, the outermost first. -/
inductive FnInlined (op : LineParams → LineOp → Prop) (d : Sections) (xs : List DieUnit) (line : Option (List Byte)) (detail : Bool) (addr : Nat) : Option EntryRef → List InlinedFn → Prop
  | none : FnInlined op d xs line detail addr none []
  | nothing {p F} : (p.x.placed p.uo).KidsOf (p.o, p.e) F → (∀ b ∈ (p.o, p.e) :: F.all, Told d xs p.uo p.x addr b) → InlineChain d xs p.uo p.x addr (p.o, p.e) F [] →
      FnInlined op d xs line detail addr (some p) []
  | inlined {p F as t is sec} : line = some sec → (p.x.placed p.uo).KidsOf (p.o, p.e) F → (∀ b ∈ (p.o, p.e) :: F.all, Told d xs p.uo p.x addr b) → InlineChain d xs p.uo p.x addr (p.o, p.e) F as →
      LinesOf d sec p.x t → t.Plain op → InlinedAs d xs t.tables detail p.uo p.x as is → FnInlined op d xs line detail addr (some p) is

/-- The place in the source, if it is shown. -/
def FrameFacts.here (f : FrameFacts) (w : ShowWhat) : Option SourceLine := if w.sources then f.source else none

/-- The lines for a frame in an object: those for the inlined functions and that for the function. -/
inductive FrameLines (w : ShowWhat) (no : Nat) (f : FrameFacts) (object name args : List Byte) (offset : Option Nat) : List InlinedFn → List Byte → Prop
  | known {h is} : f.here w = some h → h.file ≠ [] → (∀ i ∈ is, i.call.file ≠ []) →
      FrameLines w no f object name args offset is (inlinedLines no h is.reverse ++ functionLine w no f object name args offset (some (outermost h is.reverse)))
  | unknown : f.here w = none → FrameLines w no f object name args offset [] (functionLine w no f object name args offset none)

/-- The text for a frame. `k` and `op` say what of the arguments and of line tables is known. -/
inductive FrameText (k : Knows) (op : LineParams → LineOp → Prop) (d : Sections) (xs : List DieUnit) (line : Option (List Byte)) (fs : FrameState) (w : ShowWhat) (no : Nat) (f : FrameFacts) : List Byte → Prop
  | outside : f.object = none → FrameText k op d xs line fs w no f (frameNumber no ++ (asciiText "0x" ++ (hex16 f.pc.toNat ++ (asciiText " no information for frame" ++
      ((if w.detail then asciiText " via " ++ f.mechanism else []) ++ asciiText "\n")))))
  | inside {object name args offset is t} : f.object = some object → FnName d xs (f.looked w) name → FnOffset d xs f (f.looked w) offset → FnInlined op d xs line w.detail f.addr.toNat (f.looked w) is →
      FnArgs k d xs w fs f.fn args → FrameLines w no f object (f.shownName name) args offset is t → FrameText k op d xs line fs w no f t

/-! ### Stacks -/

/-- The heading: the thread and its type, if they are known, the id, and the name. -/
def stackHeading (thread : Option (BitVec 64 × Int)) (id : Int) (name : Option (List Byte)) : List Byte :=
  (match thread with
    | some (tid, type) => asciiText "thread: " ++ (addressText tid.toNat ++ (asciiText ", type: " ++ (decimalText type ++ asciiText ", ")))
    | none => []) ++ (asciiText "lwp: " ++ (decimalText id ++ ((match name with
    | some n => asciiText ", name: " ++ n
    | none => []) ++ asciiText "\n")))

/-- The text for frames, numbered from this number on. Each is in an object of some number. -/
inductive FramesText (k : Knows) (op : LineParams → LineOp → Prop) (d : Nat → Sections) (xs : Nat → List DieUnit) (line : Nat → Option (List Byte)) (w : ShowWhat) :
    Nat → List (Nat × FrameFacts × FrameState) → List Byte → Prop
  | nil {no} : FramesText k op d xs line w no [] []
  | cons {no j f c t fs ts} : FrameText k op (d j) (xs j) (line j) c w no f t → FramesText k op d xs line w (no + 1) fs ts → FramesText k op d xs line w no ((j, f, c) :: fs) (t ++ ts)

end Pstack.Spec
