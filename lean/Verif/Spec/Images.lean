import Verif.Model.Images
/-
What finding images should do. The files, the options and the images are those of the model; how they are searched is said here again.
-/
namespace Pstack.Spec
open Pstack.Images

/-- The path of a name in a directory, of which "" is the current one. -/
def under_dir (dir name : Path) : Path := if dir = [] then name else dir ++ ['/'] ++ name

/-- A script, and its interpreter: `#!`, blanks, the interpreter, up to a blank or the end of the line or of the file. -/
def ScriptOf (content : List Char) (interp : Path) : Prop :=
  ∃ blanks rest, content = ['#', '!'] ++ blanks ++ interp ++ rest ∧ (∀ c ∈ blanks, c = ' ' ∨ c = '\t') ∧ interp ≠ [] ∧ (∀ c ∈ interp, c ≠ ' ' ∧ c ≠ '\t' ∧ c ≠ '\n') ∧
    (∀ c, rest.head? = some c → c = ' ' ∨ c = '\t' ∨ c = '\n')

/-- Scripts begin as the program expects: all of the interpreter is in the first 64 characters, and has no strange blanks in it; and they are not ELF images. -/
def ScriptsFit (fs : Files) : Prop :=
  ∀ p c, fs.content p = some c → c.take 2 = ['#', '!'] → fs.isElf c = false ∧
    ∃ blanks interp rest, c = ['#', '!'] ++ blanks ++ interp ++ rest ∧ (∀ c ∈ blanks, c = ' ' ∨ c = '\t') ∧ 2 ≤ interp.length ∧ (∀ c ∈ interp, isSpace c = false) ∧
      (∀ c, rest.head? = some c → c = ' ' ∨ c = '\t' ∨ c = '\n') ∧ 2 + blanks.length + interp.length ≤ 64

/-- What a path is good for: the image in it, or, if it is a script and programs are looked for, its interpreter. -/
inductive HoldsImage (fs : Files) (isDebug : Bool) (p : Path) : Path → Prop
  | image (c) : fs.content p = some c → fs.isElf c = true → HoldsImage fs isDebug p p
  | script (c i ci) : isDebug = false → fs.content p = some c → ScriptOf c i → fs.content i = some ci → fs.isElf ci = true → HoldsImage fs isDebug p i

/-- The best of some paths: the first that is good for something. -/
def Best (fs : Files) (isDebug : Bool) : List Path → Option Path → Prop
  | [], r => r = none
  | p :: ps, r => (∃ f, r = some f ∧ HoldsImage fs isDebug p f) ∨ ((∀ f, ¬ HoldsImage fs isDebug p f) ∧ Best fs isDebug ps r)

/-- A build id in hexadecimal digits. -/
def hexId (b : BuildId) : List Char := b.flatMap fun x => [(x.toNat / 16).digitChar, (x.toNat % 16).digitChar]

/-- The file for a build id, in a directory of such: `ab/cdef0123`, and `ab/cdef0123.debug` for debug information. -/
def idFileName (b : BuildId) (isDebug : Bool) : Path := (hexId b).take 2 ++ ['/'] ++ (hexId b).drop 2 ++ (if isDebug then ".debug".toList else [])

/-- The file that a path stands for, if links can be resolved. -/
def real (fs : Files) (p : Path) : Path :=
  match fs.realpath p with
  | .path q => q
  | _ => p

/-- A directory that is written without a slash at its end (except for "", the current one). -/
def PlainDir (dir : Path) : Prop := dir.getLast? ≠ some '/'

instance (dir : Path) : Decidable (PlainDir dir) := inferInstanceAs (Decidable (_ ≠ _))

/-- Questions to a context. -/
inductive Ask
  | name (n : Path)
  | debugName (n : Path)
  | id (b : BuildId)
  | debugId (b : BuildId)

/-- What can be done with it. -/
inductive Use
  | ask (q : Ask)
  | flush (i : Option Image)
  | dwarf (i : Image)

/-- The answer to a question. -/
def reply (fs : Files) (o : Options) (s : St) : Ask → St × Res (Option Image)
  | .name n => let (s, i) := findImage fs o s n; (s, .ok i)
  | .debugName n => let (s, i) := findDebugImage fs o s n; (s, .ok i)
  | .id b => getImageById fs o s b false
  | .debugId b => getImageById fs o s b true

def useStep (fs : Files) (o : Options) (s : St) : Use → St
  | .ask q => (reply fs o s q).1
  | .flush i => flush s i
  | .dwarf i => (findDwarf s (some i)).1

/-- The context after it has been used. -/
def afterUse (fs : Files) (o : Options) (h : List Use) : St := h.foldl (useStep fs o) {}

/-- The file an answer is about. -/
def fileOf (r : Res (Option Image)) : Res (Option Path) := do return (← r).map (·.file)

/-- Names are absolute paths. -/
def Ask.Absolute : Ask → Prop
  | .name n | .debugName n => n.head? = some '/'
  | _ => True

def Use.Absolute : Use → Prop
  | .ask q => q.Absolute
  | _ => True

/-- A link, and where it leads. If it does not begin with a slash it is relative to the directory it is in. -/
inductive Link1 (fs : Files) : Path → Path → Prop
  | absolute (a t) : fs.readlink a = .target t → t.head? = some '/' → t.length < 1024 → Link1 fs a t
  | relative (dir base t) : fs.readlink (dir ++ base) = .target t → t.head? ≠ some '/' → t.length < 1024 → (dir = [] ∨ dir.getLast? = some '/') → '/' ∉ base → Link1 fs (dir ++ base) (dir ++ t)

/-- `Links fs a b`: from `a`, links lead to `b` (in any number of steps). -/
inductive Links (fs : Files) : Path → Path → Prop
  | here (a) : Links fs a a
  | step (a t b) : Link1 fs a t → Links fs t b → Links fs a b

end Pstack.Spec
