import Verif.Model.Map
/-
Model of canal.cc: matching symbols against patterns, attributing words of memory to symbols.
-/
namespace Pstack.Canal

/-- The part of a `std::string` that `c_str()` shows: up to the first NUL. -/
def cstr (s : List Byte) : List Byte := s.takeWhile (· ≠ 0)

mutual
/-- `globmatchR`; a list stands for a NUL-terminated string. The C loop advances `name` and `pattern` together, which is the
recursive call in the default case. canal.cc:42-63. -/
def globmatchR : List Byte → List Byte → Bool
  | [], [] => true
  | [], _ :: _ => false
  | c :: p, n =>
    if c = 0x2a then star p n
    else match n with
      | [] => false
      | d :: n => if d ≠ c then false else globmatchR p n
termination_by p _ => (p.length, 0)

/-- The loop for '*': try the rest of the pattern at each suffix of the name. canal.cc:49-55. -/
def star (p : List Byte) : List Byte → Bool
  | [] => globmatchR p []
  | d :: n => if globmatchR p (d :: n) then true else star p n
termination_by n => (p.length, n.length + 1)
end

/-- canal.cc:65-69. -/
def globmatch (pattern name : List Byte) : Bool := globmatchR (cstr pattern) (cstr name)

/-- A listed symbol: its value and size in the object, the object's load address, its name, how often it was seen and the object's name.
canal.cc:71-85. -/
structure Sym where
  value : BitVec 64
  size : BitVec 64
  objbase : BitVec 64
  name : List Byte
  count : Nat
  objname : List Byte
  deriving DecidableEq

/-- `ListedSymbol::memaddr`. canal.cc:84. -/
def Sym.memaddr (s : Sym) : BitVec 64 := s.value + s.objbase

/-- `SymbolStore::add`: keyed by the address of the end. canal.cc:91-93. -/
def add (m : OMap Sym) (s : Sym) : OMap Sym := OMap.emplace (s.memaddr + s.size).toNat s m

/-- `SymbolStore::find`. canal.cc:95-103. -/
def find (m : OMap Sym) (address : BitVec 64) (mat : BitVec 64 → Sym → Bool) : Option Sym :=
  match OMap.lowerBound address.toNat m with
  | [] => none
  | (_, s) :: _ => if mat address s then some s else none

/-- `OffsetFreeSymbolMatcher`. canal.cc:115-120. -/
def offsetFree (address : BitVec 64) (s : Sym) : Bool := s.memaddr ≤ address ∧ s.memaddr + s.size > address

/-- `OffsetBoundSymbolMatcher`. canal.cc:122-129. -/
def offsetBound (offset address : BitVec 64) (s : Sym) : Bool := s.memaddr + offset = address

/-- The symbols that are added: those of each object that match a pattern, once for each pattern they match. `syms` are the
symbols of the dynamic and debug tables of all objects, in the order they are visited. canal.cc:335-360. -/
def collect (patterns : List (List Byte)) (syms : List Sym) : OMap Sym :=
  syms.foldl (fun m s => patterns.foldl (fun m p => if globmatch p s.name then add m s else m) m) []

/-- `sym->count++`, for the symbol that `find` found. canal.cc:99, 244. -/
def bump (m : OMap Sym) (key : Nat) : OMap Sym :=
  m.map (fun e => if e.1 = key then (e.1, { e.2 with count := e.2.count + 1 }) else e)

/-- The loop of `search` over the words of a segment, when no addresses were given on the command line. canal.cc:224-246. -/
def search (mat : BitVec 64 → Sym → Bool) (m : OMap Sym) : List (BitVec 64) → OMap Sym
  | [] => m
  | p :: ps =>
    match OMap.lowerBound p.toNat m with
    | [] => search mat m ps
    | (k, s) :: _ => search mat (if mat p s then bump m k else m) ps

end Pstack.Canal
