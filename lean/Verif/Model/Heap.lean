import Verif.Basic
/-
Model of the debugging heap: heap.c, heap.h. A machine with 64-bit pointers: `struct guard` has 16 bytes (`desc` at 0, `state` at 8), `enum memstate` 4.
The real allocator is a parameter: it answers requests as `Answer` says. Descriptors (`struct memdesc`) are kept apart from the memory that programs write to; they are
named by their addresses. Serial numbers, stack traces and the counts of calls are left out. `die` is `Res.abort`. Reading or writing memory that is in no block of the real
allocator is undefined behaviour.
-/
namespace Pstack.Heap

/-- `mem_allocated`, as an unsigned number. heap.h:10 -/
def memAllocated : Nat := 0xa5a5a5a5
/-- `mem_free`. heap.h:11 -/
def memFree : Nat := 0x5a5a5a5a

/-- `struct memdesc`. heap.h:37-44 -/
structure Desc where
  /-- the address of the guard -/
  data : Nat
  base : Nat
  len : Nat

/-- The settings of `struct hdbg_info`. heap.h:59-77, heap.c:233-260 -/
structure Config where
  level : Int
  doFill : Bool
  freelistmax : Int
  rememberbigger : Nat
  maxbig : Nat
  allocLimit : Nat

/-- The memory, the blocks of the real allocator that are in use (with their sizes), the descriptors, and the rest of `struct hdbg_info`. -/
structure St where
  mem : Nat → Byte
  real : List (Nat × Nat)
  desc : Nat → Option Desc
  heap : List Nat
  freelist : List Nat
  pool : List Nat
  big : List Nat
  numbig : Nat
  freelistsize : Nat
  total : BitVec 64
  maxmem : BitVec 64

/-- After the initialisation, before the first call. heap.c:262-288 -/
def St.empty (mem : Nat → Byte) : St := ⟨mem, [], fun _ => none, [], [], [], [], 0, 0, 0, 0⟩

/-! ### Memory -/

/-- The number in the `n` bytes at `a`, little-endian. -/
def word (m : Nat → Byte) (a : Nat) : Nat → Nat
  | 0 => 0
  | n + 1 => (m a).toNat + 256 * word m (a + 1) n

/-- The memory with the number `v` in the `n` bytes at `a`. -/
def put (m : Nat → Byte) (a v n : Nat) : Nat → Byte := fun x => if a ≤ x ∧ x < a + n then BitVec.ofNat 8 (v / 256 ^ (x - a)) else m x

/-- These bytes are in a block of the real allocator. -/
def St.mapped (s : St) (a n : Nat) : Bool := s.real.any (fun r => decide (r.1 ≤ a ∧ a + n ≤ r.1 + r.2))

def load (s : St) (a n : Nat) : Res Nat := if s.mapped a n then .ok (word s.mem a n) else .ub

def store (s : St) (a v n : Nat) : Res St := if s.mapped a n then .ok { s with mem := put s.mem a v n } else .ub

/-- The answer of the real allocator: the address of a block (0 if there is none), and what is in the block. -/
structure Answer where
  base : Nat
  junk : Nat → Byte

def realMalloc (n : Nat) (a : Answer) (s : St) : St :=
  if a.base = 0 then s
  else { s with real := (a.base, n) :: s.real, mem := fun x => if a.base ≤ x ∧ x < a.base + n then a.junk x else s.mem x }

def realFree (b : Nat) (s : St) : Res St :=
  if s.real.any (fun r => decide (r.1 = b)) then .ok { s with real := s.real.filter (fun r => r.1 ≠ b) } else .ub

/-! ### Guards -/

/-- `fill`: the number of bytes is an `int`, the four low bytes of the filler are repeated. heap.c:90-98 -/
def fill (cfg : Config) (a n filler : Nat) (s : St) : Res St :=
  if cfg.doFill = false then .ok s
  else
    let k := if n % 2 ^ 32 < 2 ^ 31 then n % 2 ^ 32 else 0
    if s.mapped a k then .ok { s with mem := fun x => if a ≤ x ∧ x < a + k then BitVec.ofNat 8 (filler / 256 ^ ((x - a) % 4)) else s.mem x } else .ub

/-- A pointer to a descriptor is followed. -/
def descOf (s : St) (d : Nat) : Res Desc :=
  match s.desc d with
  | none => .ub
  | some x => .ok x

/-- `set_state`. heap.c:100-109 -/
def setState (d : Nat) (state : Nat) (s : St) : Res St := do
  let x ← descOf s d
  let s ← store s (x.data + 16 + x.len) state 4
  store s (x.data + 8) state 4

/-- `get_state`. heap.c:164-173 -/
def getState (d : Nat) (s : St) : Res Nat := do
  let x ← descOf s d
  let tail ← load s (x.data + 16 + x.len) 4
  let head ← load s (x.data + 8) 4
  if tail ≠ head then .abort else .ok tail

/-- The loop of `sanity_freenode`: eight bytes at a time are compared, for every four bytes of the block. heap.c:183-185 -/
def checkFill (s : St) (a : Nat) : Nat → Res Unit
  | 0 => .ok ()
  | i + 1 => do
      checkFill s a i
      let v ← load s (a + 8 * i) 8
      if v ≠ 0xdeaddead then .abort else .ok ()

/-- `sanity_freenode`. heap.c:175-187 -/
def sanityFree (cfg : Config) (d : Nat) (s : St) : Res Unit := do
  let st ← getState d s
  if st ≠ memFree then .abort
  else if cfg.doFill then do
    let x ← descOf s d
    checkFill s (x.data + 16) (x.len / 4)
  else .ok ()

/-! ### The parts of `malloc` and `free`. Each is done at once as far as other threads can see: it is done under a lock, or it is about a block no other thread has. -/

/-- `build_alloc` up to the second lock: a descriptor (`fresh` is the answer of the real allocator, if there is none to be had), and the guards. heap.c:113-130 -/
def build (base guard size fresh : Nat) (s : St) : Res (Nat × St) := do
  let (d, s) := match s.pool with
    | [] => (fresh, s)
    | d :: rest => (d, { s with pool := rest })
  let s ← store s guard d 8
  if d = 0 then .ub
  else do
    let s := { s with desc := fun x => if x = d then some ⟨guard, base, size⟩ else s.desc x }
    let s ← setState d memAllocated s
    .ok (d, s)

/-- `malloc` up to the second lock of `build_alloc`. heap.c:419-421 -/
def mallocA (size : Nat) (ans : Answer) (fresh : Nat) (s : St) : Res (Nat × St) :=
  build ans.base ans.base size fresh (realMalloc ((16 + size + 4) % 2 ^ 64) ans s)

/-- The space `aligned_alloc` puts before the block. heap.c:434-435 -/
def internalSpace (align : Nat) : Nat := align * (16 / align + if 16 % align ≠ 0 then 1 else 0)

/-- `aligned_alloc` up to the second lock of `build_alloc`. heap.c:434-440 -/
def alignedA (align size : Nat) (ans : Answer) (fresh : Nat) (s : St) : Res (Nat × St) :=
  if align = 0 then .ub
  else build ans.base (ans.base + internalSpace align - 16) size fresh (realMalloc ((internalSpace align + size + 4) % 2 ^ 64) ans s)

/-- The rest of `build_alloc`; the block is returned. heap.c:132-144 -/
def mallocB (cfg : Config) (d : Nat) (s : St) : Res (Nat × St) := do
  let x ← descOf s d
  let total := s.total + BitVec.ofNat 64 x.len
  let maxmem := if s.maxmem < total then total else s.maxmem
  if s.maxmem < total ∧ cfg.allocLimit ≠ 0 ∧ cfg.allocLimit < total.toNat then .abort
  else do
    let s ← fill cfg (x.data + 16) x.len 0xbaadf00d { s with total := total, maxmem := maxmem, heap := d :: s.heap }
    .ok (x.data + 16, s)

/-- `free(p)` up to the lock. heap.c:458-468 -/
def freeA (cfg : Config) (p : Nat) (s : St) : Res (Nat × St) := do
  let d ← load s (p - 16) 8
  let st ← getState d s
  if st ≠ memAllocated then .abort
  else do
    let x ← descOf s d
    if x.data ≠ p - 16 then .abort
    else do
      let s ← fill cfg (x.data + 16) x.len 0xdeaddead s
      let s ← setState d memFree s
      .ok (d, s)

/-- `free`, under the lock. The result is the block to be given back. heap.c:470-488 -/
def freeB (cfg : Config) (d : Nat) (s : St) : Res (Option Nat × St) := do
  let x ← descOf s d
  if d ∈ s.heap then
    let s := { s with total := s.total - BitVec.ofNat 64 x.len, heap := s.heap.erase d, freelist := d :: s.freelist }
    if (s.freelistsize : Int) = cfg.freelistmax then .ok (s.freelist.getLast?, { s with freelist := s.freelist.dropLast })
    else .ok (none, { s with freelistsize := s.freelistsize + 1 })
  else .ub

/-- `free`, after the lock: a block is given back. heap.c:150-160, 490-495 -/
def freeC (cfg : Config) (e : Nat) (s : St) : Res St := do
  let x ← descOf s e
  sanityFree cfg e s
  let s := if cfg.rememberbigger ≤ x.len ∧ s.numbig < cfg.maxbig then { s with big := s.big ++ [e], numbig := s.numbig + 1 } else { s with pool := s.pool ++ [e] }
  realFree x.base s

/-! ### The functions -/

/-- `assertheap`. heap.c:313-333 -/
def assertHeap (cfg : Config) (s : St) : Res Unit :=
  if cfg.level = 0 then .ok ()
  else do
    goHeap s.heap
    goFree (s.freelist.take 66)
where
  goHeap : List Nat → Res Unit
    | [] => .ok ()
    | d :: l => do
        let st ← getState d s
        if st ≠ memAllocated then .abort else goHeap l
  goFree : List Nat → Res Unit
    | [] => .ok ()
    | d :: l => do
        sanityFree cfg d s
        goFree l

/-- `use_hdmp`, after the first call. heap.c:220-224 -/
def enter (cfg : Config) (s : St) : Res Unit := if 2 ≤ cfg.level then assertHeap cfg s else .ok ()

/-- heap.c:415-423 -/
def malloc (cfg : Config) (size : Nat) (ans : Answer) (fresh : Nat) (s : St) : Res (Nat × St) := do
  enter cfg s
  let (d, s) ← mallocA size ans fresh s
  mallocB cfg d s

/-- heap.c:425-442. `memalign`, `posix_memalign` and `valloc` (with 4096) come down to this. heap.c:396-413 -/
def alignedAlloc (cfg : Config) (align size : Nat) (ans : Answer) (fresh : Nat) (s : St) : Res (Nat × St) := do
  enter cfg s
  let (d, s) ← alignedA align size ans fresh s
  mallocB cfg d s

/-- heap.c:449-496 -/
def free (cfg : Config) (p : Nat) (s : St) : Res St :=
  if p = 0 then .ok s
  else do
    enter cfg s
    let (d, s) ← freeA cfg p s
    let (e, s) ← freeB cfg d s
    match e with
    | none => .ok s
    | some e => freeC cfg e s

/-- `memcpy`, and `memset` of zeros. -/
def copy (to src n : Nat) (s : St) : Res St :=
  if s.mapped src n ∧ s.mapped to n then .ok { s with mem := fun x => if to ≤ x ∧ x < to + n then s.mem (src + (x - to)) else s.mem x } else .ub

def clear (a n : Nat) (s : St) : Res St := if s.mapped a n then .ok { s with mem := fun x => if a ≤ x ∧ x < a + n then 0 else s.mem x } else .ub

/-- heap.c:498-516 -/
def realloc (cfg : Config) (p size : Nat) (ans : Answer) (fresh : Nat) (s : St) : Res (Nat × St) := do
  enter cfg s
  if p = 0 then malloc cfg size ans fresh s
  else do
    let d ← load s (p - 16) 8
    let x ← descOf s d
    if size ≤ x.len then .ok (p, s)
    else do
      let (q, s) ← malloc cfg size ans fresh s
      let x ← descOf s d
      let s ← copy q p (if x.len < size then x.len else size) s
      let s ← free cfg p s
      .ok (q, s)

/-- heap.c:518-526 -/
def calloc (cfg : Config) (num size : Nat) (ans : Answer) (fresh : Nat) (s : St) : Res (Nat × St) := do
  enter cfg s
  let size := size * num % 2 ^ 64
  let (p, s) ← malloc cfg size ans fresh s
  let s ← clear p size s
  .ok (p, s)

/-- `use_hdmp`, in the first call and later ones. heap.c:212-290 -/
def useHdmp (cfg : Config) (first : Bool) : Bool := if first then cfg.level ≠ 0 else true

/-- `malloc`, in the first call and later ones. Without the heap debugger it is that of the real allocator. heap.c:415-423 -/
def mallocTop (cfg : Config) (first : Bool) (size : Nat) (ans : Answer) (fresh : Nat) (s : St) : Res (Nat × St) :=
  if useHdmp cfg first then malloc cfg size ans fresh s else .ok (ans.base, realMalloc size ans s)

end Pstack.Heap
