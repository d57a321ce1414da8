import Verif.Basic
/-
JSON (RFC 8259): values, a parser for texts, and the Unicode encodings (RFC 3629, RFC 2781).
The parser reads whole numbers only; texts with fractions or exponents are rejected.
-/
namespace Pstack.Spec

/-- JSON values. A string is a sequence of UTF-16 code units, which is what the escapes of JSON denote. -/
inductive JVal where
  | null
  | bool (b : Bool)
  | int (i : Int)
  | str (units : List Nat)
  | arr (xs : List JVal)
  | obj (fs : List (List Nat × JVal))

/-- Encoding of a code point in UTF-8. -/
def utf8 (c : Nat) : List Byte :=
  if c < 0x80 then [BitVec.ofNat 8 c]
  else if c < 0x800 then [BitVec.ofNat 8 (0xc0 + c / 64), BitVec.ofNat 8 (0x80 + c % 64)]
  else if c < 0x10000 then [BitVec.ofNat 8 (0xe0 + c / 4096), BitVec.ofNat 8 (0x80 + c / 64 % 64), BitVec.ofNat 8 (0x80 + c % 64)]
  else [BitVec.ofNat 8 (0xf0 + c / 262144), BitVec.ofNat 8 (0x80 + c / 4096 % 64), BitVec.ofNat 8 (0x80 + c / 64 % 64), BitVec.ofNat 8 (0x80 + c % 64)]

/-- Encoding of a code point in UTF-16. -/
def utf16 (c : Nat) : List Nat :=
  if c < 0x10000 then [c] else [0xd800 + (c - 0x10000) / 1024, 0xdc00 + (c - 0x10000) % 1024]

def utf8s (cs : List Nat) : List Byte := (cs.map utf8).flatten
def utf16s (cs : List Nat) : List Nat := (cs.map utf16).flatten

/-- Unicode scalar values. -/
def IsScalar (c : Nat) : Prop := c < 0xd800 ∨ (0xdfff < c ∧ c < 0x110000)

/-- Value of a digit. -/
def hexVal (c : Char) : Option Nat :=
  if '0' ≤ c ∧ c ≤ '9' then some (c.toNat - 48)
  else if 'a' ≤ c ∧ c ≤ 'f' then some (c.toNat - 87)
  else if 'A' ≤ c ∧ c ≤ 'F' then some (c.toNat - 55)
  else none

def isDigit (c : Char) : Bool := '0' ≤ c ∧ c ≤ '9'

/-- What follows a backslash: the code units, and the rest. -/
def parseEscape : List Char → Option (List Nat × List Char)
  | 'u' :: a :: b :: c :: d :: s => do
      let a ← hexVal a
      let b ← hexVal b
      let c ← hexVal c
      let d ← hexVal d
      return ([4096 * a + 256 * b + 16 * c + d], s)
  | 'b' :: s => some ([8], s)
  | 'f' :: s => some ([12], s)
  | 'n' :: s => some ([10], s)
  | 'r' :: s => some ([13], s)
  | 't' :: s => some ([9], s)
  | '"' :: s => some ([34], s)
  | '\\' :: s => some ([92], s)
  | '/' :: s => some ([47], s)
  | _ => none

/-- The characters of a string up to its closing quote. -/
def parseChars : Nat → List Char → Option (List Nat × List Char)
  | 0, _ => none
  | _ + 1, [] => none
  | n + 1, c :: s =>
    if c = '"' then some ([], s)
    else if c = '\\' then do
      let (u, s) ← parseEscape s
      let (us, s) ← parseChars n s
      return (u ++ us, s)
    else if c.toNat < 0x20 then none
    else do
      let (us, s) ← parseChars n s
      return (utf16 c.toNat ++ us, s)

def parseString : List Char → Option (List Nat × List Char)
  | '"' :: s => parseChars (s.length + 1) s
  | _ => none

def isSpace (c : Char) : Bool := c = ' ' ∨ c = '\n' ∨ c = '\r' ∨ c = '\t'
def skipWs (s : List Char) : List Char := s.dropWhile isSpace

/-- The leading digits, as a number, and the rest. -/
def parseNat : Nat → List Char → Nat × List Char
  | acc, c :: s => if isDigit c then parseNat (10 * acc + (c.toNat - 48)) s else (acc, c :: s)
  | acc, [] => (acc, [])

/-- A whole number: no leading zeros, and no fraction or exponent after it. -/
def parseNumber (s : List Char) : Option (Nat × List Char) :=
  match s with
  | '0' :: s => match s with
    | [] => some (0, [])
    | c :: s => if isDigit c ∨ c = '.' ∨ c = 'e' ∨ c = 'E' then none else some (0, c :: s)
  | c :: s => if isDigit c then
      match parseNat 0 (c :: s) with
      | (n, []) => some (n, [])
      | (n, c :: s) => if c = '.' ∨ c = 'e' ∨ c = 'E' then none else some (n, c :: s)
    else none
  | [] => none

mutual
/-- A value, after any white space. The first argument bounds the depth and length. -/
def parseValue : Nat → List Char → Option (JVal × List Char)
  | 0, _ => none
  | n + 1, s =>
    match skipWs s with
    | 'n' :: 'u' :: 'l' :: 'l' :: s => some (.null, s)
    | 't' :: 'r' :: 'u' :: 'e' :: s => some (.bool true, s)
    | 'f' :: 'a' :: 'l' :: 's' :: 'e' :: s => some (.bool false, s)
    | '"' :: s => do
        let (u, s) ← parseString ('"' :: s)
        return (.str u, s)
    | '[' :: s =>
        match skipWs s with
        | ']' :: s => some (.arr [], s)
        | s => do
          let (xs, s) ← parseItems n s
          return (.arr xs, s)
    | '{' :: s =>
        match skipWs s with
        | '}' :: s => some (.obj [], s)
        | s => do
          let (fs, s) ← parseFields n s
          return (.obj fs, s)
    | '-' :: s => do
        let (i, s) ← parseNumber s
        return (.int (- (i : Int)), s)
    | s => do
        let (i, s) ← parseNumber s
        return (.int i, s)

/-- The items of a nonempty array, and its closing bracket. -/
def parseItems : Nat → List Char → Option (List JVal × List Char)
  | 0, _ => none
  | n + 1, s => do
    let (x, s) ← parseValue n s
    match skipWs s with
    | ',' :: s => do
        let (xs, s) ← parseItems n s
        return (x :: xs, s)
    | ']' :: s => some ([x], s)
    | _ => none

/-- The members of a nonempty object, and its closing brace. -/
def parseFields : Nat → List Char → Option (List (List Nat × JVal) × List Char)
  | 0, _ => none
  | n + 1, s => do
    let (k, s) ← parseString (skipWs s)
    match skipWs s with
    | ':' :: s => do
        let (x, s) ← parseValue n s
        match skipWs s with
        | ',' :: s => do
            let (fs, s) ← parseFields n s
            return ((k, x) :: fs, s)
        | '}' :: s => some ([(k, x)], s)
        | _ => none
    | _ => none
end

/-- A JSON text: a value and nothing but white space after it. -/
def parseJson (s : List Char) : Option JVal := do
  let (v, r) ← parseValue (s.length + 1) s
  if skipWs r = [] then some v else none

end Pstack.Spec
