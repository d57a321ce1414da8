import Verif.Spec.Die
import Verif.Model.Die
/-
A program that visits the entries of a unit, and the histories of such programs.
-/
namespace Pstack.Spec
open Pstack.Die

/-- A decoded value is this value. `d` is the section the entry is in, where strings and blocks are left. An offset of more than half the
possible size is not said to be right (`C25_not_offset`). -/
def Means (d : List Byte) (sz : Sizes) (k : FormKind) (v : AttrVal) (w : Value) : Prop :=
  match k, v with
  | .sleb, .int z => w = .word (BitVec.ofInt 64 z)
  | .implicit, .int z => w = .word (BitVec.ofInt 64 z)
  | .flag, .flag b => w = .flag (b ≠ 0#8)
  | .present, .flag _ => w = .flag true
  | .string, .str s => ∃ off rest, w = .word (BitVec.ofNat 64 off) ∧ off < 2 ^ 64 ∧ d.drop off = s ++ 0#8 :: rest
  | .block _, .block bs => ∃ off rest, w = .block bs.length off ∧ d.drop off = bs ++ rest
  | .blockU, .block bs => ∃ off rest, w = .block bs.length off ∧ d.drop off = bs ++ rest
  | .offset, .num n => ∃ x, w = .word x ∧ (n < 2 ^ (8 * sz.offSize - 1) → x.toNat = n)
  | .fixed _, .num n => ∃ x, w = .word x ∧ x.toNat = n
  | .refAddr, .num n => ∃ x, w = .word x ∧ x.toNat = n
  | .address, .num n => ∃ x, w = .word x ∧ x.toNat = n
  | .uleb, .num n => ∃ x, w = .word x ∧ x.toNat = n
  | _, _ => False

/-- The attributes seen are these, in this order, with the numbers `i`, `i + 1`, ... for their place. -/
def AttrsShow (d : List Byte) (sz : Sizes) : Nat → List AttrDecl → List AttrVal → List (Nat × Nat) → List FormEntry → List Value → Prop
  | _, [], [], [], [], [] => True
  | i, a :: as, v :: vs, n :: ns, f :: fs, w :: ws =>
      n = (a.name, i) ∧ f.form = a.form ∧ (∃ k, formKind a.form = some k ∧ Means d sz k v w) ∧ AttrsShow d sz (i + 1) as vs ns fs ws
  | _, _, _, _, _, _ => False

/-- The library can read the unit: it has no form for numbers of 16 bytes, for references to a supplementary file, and none for forms
that come with the value; lengths have 32 bits; in version 2 addresses have the size of the machine's, and the later forms for offsets
are not used. -/
structure UnitReadable (x : DieUnit) : Prop where
  size : x.body.length < if x.fmt64 then 2 ^ 32 else 0xfffffff0
  forms : ∀ a ∈ x.decls, ∀ b ∈ a.attrs, b.form ≠ 0x16 ∧ b.form ≠ 0x1c ∧ b.form ≠ 0x1d ∧ b.form ≠ 0x1e ∧ b.form ≠ 0x24
  v2 : x.version = 2 → x.addrSize = 8 ∧ ∀ a ∈ x.decls, ∀ b ∈ a.attrs, b.form ≠ 0x17 ∧ b.form ≠ 0x1f20 ∧ b.form ≠ 0x1f21

/-- The unit is at `off` of .debug_info, and its abbreviations where it says in .debug_abbrev. -/
structure At (info abbr : List Byte) (off : Nat) (x : DieUnit) : Prop where
  unit : ∃ rest, info.drop off = x.encode ++ rest
  table : ∃ rest, abbr.drop x.abbrevPos = encodeDecls x.decls ++ rest
  /-- sections are in memory -/
  fit : info.length < 2 ^ 64 ∧ abbr.length < 2 ^ 64

/-- What is seen of an entry: its offset, its abbreviation (tag, attributes), its values. -/
structure Seen where
  off : Nat
  type : Abbrev
  values : List Value
  deriving DecidableEq, Repr

/-- What is seen of an entry is this entry, at this place. -/
def DieShows (d : List Byte) (sz : Sizes) (x : Seen) (e : Nat × DieEntry) : Prop :=
  x.off = e.1 ∧ x.type.tag = e.2.decl.tag ∧ x.type.hasChildren = e.2.decl.children ∧
  AttrsShow d sz 0 e.2.decl.attrs e.2.vals x.type.names x.type.forms x.values

def seen (s : State) (h : Handle) : Res Seen :=
  match s.get h with
  | none => .ub
  | some r => .ok ⟨h.off, r.type, r.values⟩

def mkEntry (x : Seen) (kids rest : Forest Seen) : Forest Seen := if x.type.hasChildren then .node x kids rest else .leaf x rest

/-- Write down the entries from an iterator on, and recursively those below them: `for (auto c : die.children()) { note(c); recurse(c); }` -/
def collectFrom (u : Die.Unit) : Nat → Option Handle → Handle → State → Res (Forest Seen × State)
  | 0, _, _, _ => .ub
  | _ + 1, none, _, s => .ok (.done, s)
  | fuel + 1, some c, parent, s => do
      let x ← seen s c
      let (k, s) ← begin u c s
      let (kids, s) ← collectFrom u fuel k c s
      let (n, s) ← next u fuel c parent s
      let (rest, s) ← collectFrom u fuel n parent s
      .ok (mkEntry x kids rest, s)

/-- The same, from the root of the unit. -/
def collect (u : Die.Unit) (fuel : Nat) (s : State) : Res (DieTree Seen × State) := do
  let (r, s) ← root u s
  match r with
  | none => .ub
  | some r => do
      let x ← seen s r
      let (c, s) ← begin u r s
      let (kids, s) ← collectFrom u fuel c r s
      .ok (⟨x, if x.type.hasChildren then some kids else none⟩, s)

/-- A program at work on a unit: the decoded entries, the `DIE`s it has, and its iterators (the entry whose children they run over, and
the child they are at). -/
structure Client where
  st : State
  dies : List Handle
  iters : List (Handle × Handle)

/-- Take up the result of an iterator over the children of `p`. -/
def Client.take (c : Client) (p : Handle) (r : Option Handle) (s : State) : Client :=
  match r with
  | none => ⟨s, c.dies, c.iters⟩
  | some k => ⟨s, k :: c.dies, (p, k) :: c.iters⟩

/-- Something the program does. `refs` are the offsets that attributes of the unit refer to. -/
inductive Did (u : Die.Unit) (refs : Nat → Prop) : Client → Client → Prop
  | root {c : Client} {h s} : root u c.st = .ok (some h, s) → Did u refs c ⟨s, h :: c.dies, c.iters⟩
  | ref {c : Client} {o h s} : refs o → offsetToDIE u none o c.st = .ok (some h, s) → Did u refs c ⟨s, h :: c.dies, c.iters⟩
  | begin {c : Client} {h r s} : h ∈ c.dies → begin u h c.st = .ok (r, s) → Did u refs c (c.take h r s)
  | next {c : Client} {p k r s} {fuel : Nat} : (p, k) ∈ c.iters → enough u ≤ fuel → next u fuel k p c.st = .ok (r, s) → Did u refs c (c.take p r s)
  | parent {c : Client} {h o s} {fuel : Nat} : h ∈ c.dies → enough u ≤ fuel → getParentOffset u fuel h c.st = .ok (o, s) → Did u refs c ⟨s, c.dies, c.iters⟩
  /-- `purge`, which a program may call when it keeps no `DIE` of the unit -/
  | purge {c : Client} : Did u refs c ⟨purge c.st, [], []⟩

/-- Any number of these, from the beginning. -/
inductive History (u : Die.Unit) (refs : Nat → Prop) : Client → Prop
  | start : History u refs ⟨State.empty, [], []⟩
  | step {a b : Client} : History u refs a → Did u refs a b → History u refs b

end Pstack.Spec
