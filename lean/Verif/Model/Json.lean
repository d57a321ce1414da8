import Verif.Basic
/-
Model of libpstack/json.h: the text written for strings, containers, objects, numbers, booleans and nulls.
The stream's state is not modelled, except that `Escape` leaves the number base as it found it (json.h:192, 234); a stream is
taken to start in decimal, with no field width set.
-/
namespace Pstack.Json

/-- The values printed: what the `operator<<` overloads for `JSON<T>` distinguish. Strings are bytes.
`obj true` is a `JObject` (json.h:258-286) and `obj false` a container of string-keyed pairs (json.h:133-145). -/
inductive Tree (σ : Type) where
  | null
  | bool (b : Bool)
  | int (i : Int)
  | str (s : σ)
  | list (xs : List (Tree σ))
  | obj (jobject : Bool) (fs : List (σ × Tree σ))

/-- A digit as the stream writes it, in bases up to 16. -/
def digit (n : Nat) : Char := "0123456789abcdef".toList.getD n '?'

/-- `os << unsigned` in base `b`, with no padding. -/
def digits (b n : Nat) : List Char :=
  if h : n < b ∨ b < 2 then [digit n] else digits b (n / b) ++ [digit (n % b)]
termination_by n
decreasing_by exact Nat.div_lt_self (by omega) (by omega)

/-- `os << int`. json.h:69-75. -/
def printInt (i : Int) : List Char := if i < 0 then '-' :: digits 10 i.natAbs else digits 10 i.natAbs

/-- `std::setw(w)` with fill character '0'. -/
def pad (w : Nat) (s : List Char) : List Char := List.replicate (w - s.length) '0' ++ s

/-- The bits of the lead byte that are left, and the number of its leading ones: `for (mask = 0x80; mask & v; mask >>= 1)`.
`k` counts down the bits (`mask` is `2 ^ (k - 1)`). The test of `mask == 0` inside the loop is dead. json.h:214-219. -/
def leadingOnes : Nat → Nat → Nat → Nat × Nat
  | 0, v, count => (v, count)
  | k + 1, v, count => if v.testBit k then leadingOnes k (v - 2 ^ k) (count + 1) else (v, count)

/-- `while (--count) { ... }`: collect continuation bytes. Past the end of the view the behaviour is undefined. `v` is an
`unsigned long`; no more than 7 bytes are collected, so nothing is lost. json.h:220-225. -/
def continuation : Nat → Nat → List Byte → Res (Nat × List Byte)
  | 0, v, s => .ok (v, s)
  | _ + 1, _, [] => .ub
  | n + 1, v, c :: s => if c.toNat / 64 = 2 then continuation n (v * 64 + c.toNat % 64) s else .exc

/-- One step of the loop of `operator<<(Escape)`, with `c` the byte already taken: what is written, and what remains.
json.h:196-231. -/
def escapeOne (c : Byte) (s : List Byte) : Res (List Char × List Byte) :=
  match c.toNat with
  | 8 => .ok ("\\b".toList, s)
  | 12 => .ok ("\\f".toList, s)
  | 10 => .ok ("\\n".toList, s)
  | 34 => .ok ("\\\"".toList, s)
  | 92 => .ok ("\\\\".toList, s)
  | 13 => .ok ("\\r".toList, s)
  | 9 => .ok ("\\t".toList, s)
  | n =>
    if n < 32 then .ok ('\\' :: 'u' :: digits 16 n, s)
    else if n.testBit 7 then do
      let (v, count) := leadingOnes 8 n 0
      let (v, s) ← continuation (count - 1) v s
      return ('\\' :: 'u' :: pad 4 (digits 16 v), s)
    else .ok ([Char.ofNat n], s)

theorem continuation_len : ∀ (n v : Nat) (s : List Byte) (r : Nat × List Byte), continuation n v s = .ok r → r.2.length ≤ s.length
  | 0, v, s, r, h => by cases h; exact Nat.le_refl _
  | n + 1, v, [], r, h => by cases h
  | n + 1, v, c :: s, r, h => by
    unfold continuation at h
    split at h
    · have := continuation_len _ _ _ _ h; simp; omega
    · cases h

theorem escapeOne_len (c : Byte) (s : List Byte) (r : List Char × List Byte) (h : escapeOne c s = .ok r) : r.2.length ≤ s.length := by
  unfold escapeOne at h
  split at h
  all_goals try (cases h; exact Nat.le_refl _)
  split at h
  · cases h; exact Nat.le_refl _
  · split at h
    · obtain ⟨a, h1, h2⟩ := Res.bind_eq_ok.1 h
      have := continuation_len _ _ _ _ h1
      cases h2; exact this
    · cases h; exact Nat.le_refl _

/-- `operator<<(std::ostream &, const Escape &)`. json.h:188-236. -/
def escape : List Byte → Res (List Char)
  | [] => .ok []
  | c :: s =>
    match h : escapeOne c s with
    | .ok (t, s') =>
      match escape s' with
      | .ok ts => .ok (t ++ ts)
      | .exc => .exc
      | .ub => .ub
      | .abort => .abort
    | .exc => .exc
    | .ub => .ub
    | .abort => .abort
termination_by s => s.length
decreasing_by have := escapeOne_len c s _ h; simp at this ⊢; omega

/-- A JSON string. json.h:241-245. -/
def printStr (s : List Byte) : Res (List Char) := do
  let t ← escape s
  return '"' :: t ++ ['"']

mutual
/-- `os << json(value)`. Null and absent optionals: json.h:298-319; booleans: json.h:80-83; integers: json.h:69-75; lists:
json.h:148-158; objects: json.h:133-145 and 258-286. -/
def print : Tree (List Byte) → Res (List Char)
  | .null => .ok "null".toList
  | .bool b => .ok (if b then "true".toList else "false".toList)
  | .int i => .ok (printInt i)
  | .str s => printStr s
  | .list xs => do
      let t ← printItems [] xs
      return "[ ".toList ++ t ++ " ]".toList
  | .obj false fs => do
      let t ← printFields ",\n".toList [] fs
      return "{".toList ++ t ++ "}".toList
  | .obj true fs => do
      let t ← printFields ", ".toList [] fs
      return "{ ".toList ++ t ++ " }".toList

/-- The loop of `print_list_container`. json.h:152-156. -/
def printItems (sep : List Char) : List (Tree (List Byte)) → Res (List Char)
  | [] => .ok []
  | x :: xs => do
      let t ← print x
      let ts ← printItems ",\n".toList xs
      return sep ++ t ++ ts

/-- The loop of `print_object_container`, and successive calls of `JObject::field`. json.h:108-113, 138-142, 271-276. -/
def printFields (next sep : List Char) : List (List Byte × Tree (List Byte)) → Res (List Char)
  | [] => .ok []
  | (k, x) :: fs => do
      let kt ← printStr k
      let t ← print x
      let ts ← printFields next next fs
      return sep ++ kt ++ ":".toList ++ t ++ ts
end

end Pstack.Json
