import Verif.Basic
/-
Model of flags.cc / flags.h. `getopt_long` itself (C library) is modelled only as far as `Flags` relies on it: for an option
written in full, its long form is looked up by name in the table, and its short form in the string.
-/
namespace Pstack.Flags

/-- An element of `longOptions`, with `val`. flags.cc:10. -/
structure LongOpt where
  name : String
  hasArg : Bool
  val : Int
  deriving DecidableEq

/-- `Flags`; `κ` stands for callbacks. flags.h:35-57. -/
structure Flags (κ : Type) where
  longOptions : List LongOpt := []
  data : List (Int × κ) := []
  shortOptions : List Char := []
  longVal : Int := -2

/-- `std::map::find`. -/
def Flags.find {κ : Type} (f : Flags κ) (c : Int) : Option κ := (f.data.find? (·.1 = c)).map (·.2)

/-- `add`. `flag` 0 is `LONGONLY`. flags.cc:5-17. -/
def add {κ : Type} (f : Flags κ) (name : String) (flag : Int) (metavar : Bool) (cb : κ) : Res (Flags κ) :=
  let longVal := if flag = 0 then f.longVal - 1 else f.longVal
  let flag := if flag = 0 then longVal else flag
  if (f.find flag).isSome then .abort
  else .ok { f with longOptions := f.longOptions ++ [⟨name, metavar, flag⟩], data := (flag, cb) :: f.data, longVal := longVal }

/-- `done`, without the terminating null entry. flags.cc:19-31. -/
def done {κ : Type} (f : Flags κ) : Flags κ :=
  { f with shortOptions := (f.longOptions.map fun o => if o.val > 0 then Char.ofNat o.val.toNat :: (if o.hasArg then [':'] else []) else []).flatten }

/-- An option on the command line, spelled in full. -/
inductive Arg where
  | long (name : String)
  | short (c : Char)

/-- What `getopt_long` returns for an option, and whether it takes an argument: '?' (63) if it is not known. -/
def getopt {κ : Type} (f : Flags κ) : Arg → Int × Bool
  | .long name => match f.longOptions.find? (·.name = name) with
      | some o => (o.val, o.hasArg)
      | none => (63, false)
  | .short c =>
      if c = ':' then (63, false)
      else match f.shortOptions.dropWhile (· ≠ c) with
        | [] => (63, false)
        | _ :: ':' :: _ => (c.toNat, true)
        | _ :: _ => (c.toNat, false)

/-- One round of `parse`: the callback that is run and whether it is given an argument. `data.at` throws for unknown codes.
flags.cc:53-69. -/
def parseOne {κ : Type} (f : Flags κ) (a : Arg) : Res (κ × Bool) :=
  let (c, arg) := getopt f a
  if c = 63 then .exc
  else match f.find c with
    | some cb => .ok (cb, arg)
    | none => .exc

/-- An option as the program registers it. -/
structure Decl (κ : Type) where
  name : String
  flag : Int
  metavar : Bool
  cb : κ

/-- A chain of `add` calls. -/
def addAll {κ : Type} : Flags κ → List (Decl κ) → Res (Flags κ)
  | f, [] => .ok f
  | f, d :: ds => do
      let f ← add f d.name d.flag d.metavar d.cb
      addAll f ds

end Pstack.Flags
