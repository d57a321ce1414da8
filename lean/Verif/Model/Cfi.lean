import Verif.Model.DwarfReader
/-
Model of call frame information: dwarf_frame.cc and CIE::execInsns in libpstack/dwarf.h (x86_64, ELF_BITS = 64).
-/
namespace Pstack.Dwarf
open Pstack.Reader

/-! ### Encoded addresses -/

/-- The value part of `CFI::decodeAddress`. dwarf_frame.cc:9-38. -/
def decodeRaw (d : List Byte) (encoding : Byte) : Parse (BitVec 64) :=
  match (encoding &&& 0x0f#8).toNat with
  | 0x0a => getint d 2
  | 0x0b => getint d 4
  | 0x0c => getint d 8
  | 0x02 => getuint d 2
  | 0x03 => getuint d 4
  | 0x04 => getuint d 8
  | 0x09 => getsleb128 d
  | 0x01 => getuleb128 d
  | 0x00 => getint d 4       -- DW_EH_PE_absptr reads sizeof (Elf::Word), which is 4
  | _ => throwExc

/-- The base part of `CFI::decodeAddress`; `offset` is the offset the value was read at. dwarf_frame.cc:40-62. -/
def applyBase (encoding : Byte) (offset sectionAddr sectionVa : Nat) (base : BitVec 64) : Parse (BitVec 64) :=
  match (encoding &&& 0x70#8).toNat with
  | 0x00 => pure base
  | 0x10 => pure (base + BitVec.ofNat 64 (offset + sectionAddr))
  | 0x20 => pure (base + BitVec.ofNat 64 sectionVa)
  | 0x30 => pure (base + BitVec.ofNat 64 sectionVa)
  | _ => throwExc

/-- `CFI::decodeAddress`: value and whether the indirect bit is set. `sectionAddr` is the address of the frame section,
`sectionVa` the base for text/data relative encodings. dwarf_frame.cc:6-64. -/
def decodeAddress (d : List Byte) (sectionAddr : Nat) (encoding : Byte) (sectionVa : Nat) :
    Parse (BitVec 64 × Bool) := do
  let offset ← getOffset
  let raw ← decodeRaw d encoding
  let base ← applyBase encoding offset sectionAddr sectionVa raw
  pure (base, encoding &&& 0x80#8 ≠ 0#8)

/-! ### Records -/

/-- `FIType` after construction. dwarf.h:318-322. -/
inductive FIType | debugFrame | ehFrame
  deriving DecidableEq, Repr

/-- The parts of `CIE` that are used. dwarf.h:546-563. -/
structure CIE where
  addressEncoding : Byte
  isSignalHandler : Bool
  codeAlign : BitVec 32
  dataAlign : BitVec 32
  rar : Nat
  instructions : Nat      -- initial_instructions
  endOff : Nat
  augmentation : List Byte
  lsdaEncoding : Byte
  deriving DecidableEq, Repr

/-- `FDE`. dwarf.h:497-507. The reference to the CIE is kept as the CIE itself. -/
structure FDE where
  iloc : BitVec 64
  irange : BitVec 64
  instructions : Nat
  endOff : Nat
  cie : CIE
  augmentation : List Byte
  deriving DecidableEq, Repr

/-- `CFI::isCIE`. dwarf_frame.cc:82-86. -/
def isCIE (type : FIType) (id : BitVec 64) : Bool :=
  match type with
  | .debugFrame => id.toNat == 0xffffffff
  | .ehFrame => id == 0#64

/-- `CFI::decodeCIEFDEHdr`: `none` for a zero length (returns 0); otherwise the end offset and the associated CIE offset
(`none` if the record is itself a CIE). dwarf_frame.cc:67-79. -/
def decodeHdr (d : List Byte) (type : FIType) : Parse (Option (Nat × Option Nat)) := do
  let (length, addrLen) ← getlength d
  if length = 0 then pure none
  else do
    let idoff ← getOffset
    let id ← getuint d addrLen
    let cieOff :=
      if isCIE type id then none
      else some (match type with
        | .ehFrame => (idoff + W64 - id.toNat) % W64
        | .debugFrame => id.toNat)
    pure (some ((idoff + length) % W64, cieOff))

/-- State of the augmentation loop in the CIE constructor. dwarf_frame.cc:344-383. -/
structure AugState where
  endaugdata : Nat
  addressEncoding : Byte
  lsdaEncoding : Byte
  isSignalHandler : Bool

/-- One augmentation character; the flag is `earlyExit`. dwarf_frame.cc:347-374. -/
def augStep (d : List Byte) (sectionAddr : Nat) (st : AugState) (aug : Byte) : Parse (AugState × Bool) :=
  if aug = 0x7a#8 then do          -- 'z'
    let n ← getuleb128 d
    let off ← getOffset
    pure ({ st with endaugdata := (n.toNat + off) % W64 }, false)
  else if aug = 0x50#8 then do     -- 'P'
    let enc ← getu8 d
    let _ ← decodeAddress d sectionAddr enc sectionAddr
    pure (st, false)
  else if aug = 0x4c#8 then do     -- 'L'
    let e ← getu8 d
    pure ({ st with lsdaEncoding := e }, false)
  else if aug = 0x52#8 then do     -- 'R'
    let e ← getu8 d
    pure ({ st with addressEncoding := e }, false)
  else if aug = 0x53#8 then pure ({ st with isSignalHandler := true }, false)   -- 'S'
  else if aug = 0#8 then pure (st, false)
  else pure (st, true)

/-- The augmentation loop. dwarf_frame.cc:346-377. -/
def augLoop (d : List Byte) (sectionAddr : Nat) : AugState → List Byte → Parse AugState
  | st, [] => pure st
  | st, aug :: augs => do
      let (st, earlyExit) ← augStep d sectionAddr st aug
      if earlyExit then pure st else augLoop d sectionAddr st augs

/-- `if (version >= 4) { addressSize = getu8(); segmentSize = getu8(); }`. dwarf_frame.cc:330-333. -/
def skipSizes (d : List Byte) (version : Byte) : Parse Unit :=
  if version.toNat ≥ 4 then do
    let _ ← getu8 d
    let _ ← getu8 d
    pure ()
  else pure ()

/-- `if (r.getOffset() != endaugdata) r.setOffset(endaugdata)`. dwarf_frame.cc:378-381. -/
def alignAug (limit endaugdata : Nat) : Parse Unit := fun off =>
  if off ≠ endaugdata then setOffset limit endaugdata off else .ok ((), off)

/-- The CIE constructor, with the cursor just after the id. `limit` is the cursor's limit (for the assert in
`setOffset`). dwarf_frame.cc:317-385. Not modelled: the personality value, the debug messages. -/
def parseCIE (d : List Byte) (limit sectionAddr endOff : Nat) : Parse CIE := do
  let version ← getu8 d
  let augmentation ← getstring d
  skipSizes d version
  let codeAlign ← getuleb128 d
  let dataAlign ← getsleb128 d
  let rar ← getu8 d
  let off ← getOffset
  let st ← augLoop d sectionAddr ⟨off, 0x04#8, 0#8, false⟩ augmentation
  alignAug limit st.endaugdata
  let off ← getOffset
  pure { addressEncoding := st.addressEncoding, isSignalHandler := st.isSignalHandler,
         codeAlign := codeAlign.setWidth 32, dataAlign := dataAlign.setWidth 32, rar := rar.toNat,
         instructions := off, endOff := endOff, augmentation := augmentation, lsdaEncoding := st.lsdaEncoding }

/-- The augmentation bytes of an FDE: `while (alen-- != 0) push_back(getu8())`. dwarf_frame.cc:309-313. -/
def getAug (d : List Byte) : Nat → Parse (List Byte)
  | 0 => pure []
  | n + 1 => do
      let b ← getu8 d
      let bs ← getAug d n
      pure (b :: bs)

/-- `if (!cie.augmentation.empty() && cie.augmentation[0] == 'z')`. dwarf_frame.cc:309-313. -/
def fdeAug (d : List Byte) (cie : CIE) : Parse (List Byte) :=
  if cie.augmentation.head? = some 0x7a#8 then do
    let alen ← getuleb128 d
    getAug d alen.toNat
  else pure []

/-- The FDE constructor, with the cursor just after the CIE reference. dwarf_frame.cc:299-315. -/
def parseFDE (d : List Byte) (sectionAddr : Nat) (cie : CIE) (endOff : Nat) : Parse FDE := do
  let (iloc, indirect) ← decodeAddress d sectionAddr cie.addressEncoding sectionAddr
  if indirect then throwExc
  else do
    let (irange, _) ← decodeAddress d sectionAddr (cie.addressEncoding &&& 0x0f#8) sectionAddr
    let augmentation ← fdeAug d cie
    let off ← getOffset
    pure ⟨iloc, irange, off, endOff, cie, augmentation⟩

/-- The `cies` map. dwarf.h:568, 594. -/
abbrev CIEs := List (Nat × CIE)

/-- What `putFDEorCIE` found. -/
inductive Rec where
  | stop          -- { false, nullptr }
  | cie           -- { true, nullptr }
  | fde (f : FDE) -- { true, fde }
  deriving DecidableEq, Repr

/-- `CFI::putCIE` followed by `setOffset(nextoff)`: `emplace` keeps an existing entry. dwarf_frame.cc:97-102, 114-117. -/
def putCIE (d : List Byte) (sectionAddr startOffset nextoff off : Nat) (cies : CIEs) : CIEs × Res (Rec × Nat) :=
  match parseCIE d d.length sectionAddr nextoff off with
  | .ok (cie, off) =>
      (match cies.lookup startOffset with
        | some _ => cies
        | none => (startOffset, cie) :: cies,
       do let (_, off) ← setOffset d.length nextoff off
          return (.cie, off))
  | .exc => (cies, .exc)
  | .ub => (cies, .ub)
  | .abort => (cies, .abort)

/-- Decoding of an FDE whose CIE is in the map (`cies.at` throws if it is not). dwarf_frame.cc:124-126, 299-302. -/
def putFDE (d : List Byte) (sectionAddr assoc nextoff off : Nat) (cies : CIEs) : Res (Rec × Nat) :=
  match cies.lookup assoc with
  | none => .exc
  | some cie => do
      let (fde, off) ← parseFDE d sectionAddr cie nextoff off
      let (_, off) ← setOffset d.length nextoff off
      return (.fde fde, off)

/-- `CFI::putFDEorCIE` for a cursor over the section `d` at `startOffset`: the updated `cies` map, the record and the
new offset. A CIE not met before is decoded first, by a recursive call whose result must be a CIE. The recursion depth
is the fuel: records that refer to each other in a cycle recurse without end in the C++ (stack overflow), modelled as
`ub`. dwarf_frame.cc:107-128. -/
def putFDEorCIE (d : List Byte) (type : FIType) (sectionAddr : Nat) :
    Nat → CIEs → Nat → CIEs × Res (Rec × Nat)
  | 0, cies, _ => (cies, .ub)
  | fuel + 1, cies, startOffset =>
      match decodeHdr d type startOffset with
      | .exc => (cies, .exc)
      | .ub => (cies, .ub)
      | .abort => (cies, .abort)
      | .ok (none, off) => (cies, .ok (.stop, off))
      | .ok (some (nextoff, cieOff), off) =>
          if nextoff = 0 then (cies, .ok (.stop, off))
          else if cieOff.getD (W64 - 1) = W64 - 1 then putCIE d sectionAddr startOffset nextoff off cies
          else
            let assoc := cieOff.getD (W64 - 1)
            match cies.lookup assoc with
            | some _ => (cies, putFDE d sectionAddr assoc nextoff off cies)
            | none =>
                match putFDEorCIE d type sectionAddr fuel cies assoc with
                | (cies, .ok (.cie, _)) => (cies, putFDE d sectionAddr assoc nextoff off cies)
                | (cies, .ok _) => (cies, .abort)
                | (cies, .exc) => (cies, .exc)
                | (cies, .ub) => (cies, .ub)
                | (cies, .abort) => (cies, .abort)

/-- The eager walk of the constructor: `while (!reader.empty())`. `n` bounds the number of records (each advances the
cursor in a well-formed section). dwarf_frame.cc:206-216. -/
def walk (d : List Byte) (type : FIType) (sectionAddr : Nat) : Nat → CIEs → Nat → Res (List FDE)
  | 0, _, _ => .ub
  | n + 1, cies, off =>
      if off = d.length then .ok []
      else
        match putFDEorCIE d type sectionAddr (d.length + 2) cies off with
        | (_, .ok (.stop, _)) => .ok []
        | (cies, .ok (.cie, off)) => walk d type sectionAddr n cies off
        | (cies, .ok (.fde f, off)) => do
            let fs ← walk d type sectionAddr n cies off
            return (f :: fs)
        | (_, .exc) => .exc
        | (_, .ub) => .ub
        | (_, .abort) => .abort

/-- `std::sort` by `iloc`: modelled by a merge sort. The C++ sort is not stable, so for equal start addresses the order
is unspecified; the theorems speak of tables with distinct starts. dwarf_frame.cc:217-219. -/
def sortFDEs (l : List FDE) : List FDE := l.mergeSort (fun a b => decide (a.iloc.toNat ≤ b.iloc.toNat))

/-- The CFI constructor when there is no usable `.eh_frame_hdr`. dwarf_frame.cc:200-220. -/
def eagerFDEs (d : List Byte) (type : FIType) (sectionAddr : Nat) : Res (List FDE) := do
  let fs ← walk d type sectionAddr (d.length + 1) [] 0
  return sortFDEs fs

/-! ### Lookup -/

/-- `sizeForEncoding`. dwarf_frame.cc:88-95. -/
def sizeForEncoding (enc : Byte) : Nat :=
  match (enc &&& 0x0f#8).toNat with
  | 0x02 => 2
  | 0x0a => 2
  | 0x03 => 4
  | 0x0b => 4
  | 0x04 => 8
  | 0x0c => 8
  | _ => 0

/-- The search table of `.eh_frame_hdr`: its bytes, encoding, and the address of the header section. dwarf.h:596-606. -/
structure HdrTable where
  bytes : List Byte
  enc : Byte
  hdrAddr : Nat

/-- The part of the CFI constructor that opens `.eh_frame_hdr`: `none` if it cannot be used, otherwise the number of
entries and the table. dwarf_frame.cc:153-198. -/
def openHdr (hdr : List Byte) (sectionAddr hdrAddr : Nat) : Parse (Option (Nat × HdrTable)) := do
  let _ ← getu8 hdr
  let ptrEnc ← getu8 hdr
  let fdeCountEnc ← getu8 hdr
  let tableEnc ← getu8 hdr
  -- DW_EH_PE_omit is 0xff, so comparing it with a nibble never succeeds: those tests are dead.
  if sizeForEncoding tableEnc = 0 then pure none
  else do
    let _ ← decodeAddress hdr sectionAddr ptrEnc hdrAddr
    let (n, _) ← decodeAddress hdr sectionAddr fdeCountEnc 0
    let off ← getOffset
    pure (some (n.toNat, ⟨hdr.drop off, tableEnc, hdrAddr⟩))

/-- The lazily filled table `fdes` and the `cies` map. dwarf.h:590-606. -/
structure Lazy where
  fdes : List (Option FDE)
  cies : CIEs

/-- The decoding half of `CFI::ensureFDE(idx)`: the table entry, then the record it points at. A record that is not an
FDE leaves a null pointer that is then dereferenced. dwarf_frame.cc:228-237. -/
def loadEntry (d : List Byte) (sectionAddr : Nat) (h : HdrTable) (cies : CIEs) (idx : Nat) : CIEs × Res FDE :=
  match (do
      let (fdeAddr, _) ← decodeAddress h.bytes sectionAddr h.enc h.hdrAddr
      let (fdeOff, _) ← decodeAddress h.bytes sectionAddr h.enc h.hdrAddr
      pure (fdeAddr, fdeOff) : Parse (BitVec 64 × BitVec 64)) (sizeForEncoding h.enc * 2 * idx) with
  | .exc => (cies, .exc)
  | .ub => (cies, .ub)
  | .abort => (cies, .abort)
  | .ok ((fdeAddr, fdeOff), _) =>
      match putFDEorCIE d .ehFrame sectionAddr (d.length + 2) cies (fdeOff - BitVec.ofNat 64 sectionAddr).toNat with
      | (cies, .ok (.fde f, _)) => (cies, if fdeAddr = f.iloc then .ok f else .abort)
      | (cies, .ok _) => (cies, .ub)
      | (cies, .exc) => (cies, .exc)
      | (cies, .ub) => (cies, .ub)
      | (cies, .abort) => (cies, .abort)

/-- `CFI::ensureFDE(idx)`, given the loader for table entries; an exception leaves the entry empty.
dwarf_frame.cc:223-238. -/
def ensureFDE (load : CIEs → Nat → CIEs × Res FDE) (t : Lazy) (idx : Nat) : Lazy × Res FDE :=
  match t.fdes[idx]? with
  | none => (t, .ub)
  | some (some f) => (t, .ok f)
  | some none =>
      match load t.cies idx with
      | (cies, .ok f) => (⟨t.fdes.set idx (some f), cies⟩, .ok f)
      | (cies, r) => (⟨t.fdes, cies⟩, r)

/-- The loop of `CFI::findFDE`. dwarf_frame.cc:256-268. -/
def findLoop (load : CIEs → Nat → CIEs × Res FDE) (addr : Nat) (t : Lazy) (start stop : Nat) : Lazy × Res (Option FDE) :=
  if h : start < stop then
    let mid := start + (stop - start) / 2
    match ensureFDE load t mid with
    | (t, .ok e) =>
        if e.iloc.toNat ≤ addr then
          if addr < (e.iloc + e.irange).toNat then (t, .ok (some e))
          else findLoop load addr t (mid + 1) stop
        else findLoop load addr t start mid
    | (t, .exc) => (t, .exc)
    | (t, .ub) => (t, .ub)
    | (t, .abort) => (t, .abort)
  else (t, .ok none)
termination_by stop - start
decreasing_by all_goals omega

/-- `CFI::findFDE(addr)`. dwarf_frame.cc:249-270. -/
def findFDE (load : CIEs → Nat → CIEs × Res FDE) (t : Lazy) (addr : Nat) : Lazy × Res (Option FDE) :=
  findLoop load addr t 0 t.fdes.length

/-- A sequence of lookups on one CFI object, with the answers. -/
def findFDEs (load : CIEs → Nat → CIEs × Res FDE) (t : Lazy) : List Nat → Lazy × List (Res (Option FDE))
  | [] => (t, [])
  | a :: as =>
      let (t, r) := findFDE load t a
      let (t, rs) := findFDEs load t as
      (t, r :: rs)

/-- A CFI built by the eager walk: all entries are there, nothing is ever loaded. dwarf_frame.cc:200-220. -/
def eagerTable (fs : List FDE) : Lazy := ⟨fs.map some, []⟩

/-- A CFI with a search table of `n` entries, nothing decoded yet: `fdes.resize(n)`. dwarf_frame.cc:194. -/
def lazyTable (n : Nat) : Lazy := ⟨List.replicate n none, []⟩

/-- `CFI::ensureFDEs` (and `getFDEs`): decode all entries in order; an exception ends the loop. dwarf_frame.cc:240-247. -/
def ensureFDEs (load : CIEs → Nat → CIEs × Res FDE) (t : Lazy) : (start n : Nat) → Lazy × Res Unit
  | _, 0 => (t, .ok ())
  | i, n + 1 =>
      match ensureFDE load t i with
      | (t, .ok _) => ensureFDEs load t (i + 1) n
      | (t, .exc) => (t, .exc)
      | (t, .ub) => (t, .ub)
      | (t, .abort) => (t, .abort)

/-! ### Call frame instructions -/

/-- `RegisterType`. dwarf.h:509-518. -/
inductive RegType | undef | same | offset | valOffset | expression | valExpression | reg | arch
  deriving DecidableEq, Repr

/-- `RegisterUnwind`: the union's words; `w0` is `offset`/`reg`/`arch`/`expression.offset`, `w1` is
`expression.length`. dwarf.h:522-531. -/
structure RegUnwind where
  type : RegType
  w0 : BitVec 64
  w1 : BitVec 64
  deriving DecidableEq, Repr

/-- `RegisterUnwind{}`. -/
def RegUnwind.dflt : RegUnwind := ⟨.arch, 0, 0⟩

/-- `CallFrame`: keys of `registers` are `int`. dwarf.h:536-541, default dwarf_frame.cc:271-277. -/
structure CallFrame where
  registers : BitVec 32 → Option RegUnwind
  cfaReg : BitVec 32
  cfaValue : RegUnwind

/-- `CallFrame::CallFrame()`. dwarf_frame.cc:271-277. -/
def CallFrame.init : CallFrame := ⟨fun _ => none, 0, ⟨.undef, 0, 0⟩⟩

/-- `frame.registers[reg] = v`. -/
def CallFrame.set (f : CallFrame) (reg : BitVec 32) (v : RegUnwind) : CallFrame :=
  { f with registers := fun r => if r = reg then some v else f.registers r }

/-- `frame.registers[reg]` (default-inserting). -/
def CallFrame.get (f : CallFrame) (reg : BitVec 32) : RegUnwind := (f.registers reg).getD RegUnwind.dflt

/-- Machine state of `CIE::execInsns`: `addr`, `frame`, `stack`. dwarf.h:992-996. -/
structure ExecState where
  addr : BitVec 64
  frame : CallFrame
  stack : List CallFrame

/-- `restore`: the rule in the frame the program started from, or the default rule. dwarf.h:1013-1020, 1062-1070. -/
def restoreReg (dframe frame : CallFrame) (reg : BitVec 32) : CallFrame :=
  match dframe.registers reg with
  | some v => frame.set reg v
  | none => frame.set reg RegUnwind.dflt

/-- Sign-extended `dataAlign`. -/
def CIE.dataAlign64 (c : CIE) : BitVec 64 := c.dataAlign.signExtend 64

/-- `reg * codeAlign` and friends: 32-bit unsigned arithmetic, then added to the 64-bit address.
dwarf.h:1003, 1033, 1037, 1041. -/
def advance (c : CIE) (addr : BitVec 64) (delta : BitVec 32) : BitVec 64 := addr + (delta * c.codeAlign).setWidth 64

/-- The instruction with first byte `rawOp`, the cursor just after that byte. dwarf.h:999-1180 (x86:
DW_CFA_GNU_window_save throws). -/
def execOp (d : List Byte) (cie : CIE) (dframe : CallFrame) (st : ExecState) (rawOp : Byte) : Parse ExecState :=
  let low : BitVec 32 := (rawOp &&& 0x3f#8).setWidth 32
  match (rawOp &&& 0xc0#8).toNat with
  | 0x40 => pure { st with addr := advance cie st.addr low }
  | 0x80 => do
      let offset ← getuleb128 d
      pure { st with frame := st.frame.set low { st.frame.get low with type := .offset, w0 := offset * cie.dataAlign64 } }
  | 0xc0 => pure { st with frame := restoreReg dframe st.frame low }
  | _ =>
    match (rawOp &&& 0x3f#8).toNat with
    | 0x00 => pure st
    | 0x01 => do
        let a ← getuint d 8
        pure { st with addr := a }
    | 0x02 => do
        let v ← getu8 d
        pure { st with addr := advance cie st.addr (v.setWidth 32) }
    | 0x03 => do
        let v ← getu16 d
        pure { st with addr := advance cie st.addr (v.setWidth 32) }
    | 0x04 => do
        let v ← getu32 d
        pure { st with addr := advance cie st.addr v }
    | 0x05 => do
        let reg ← getuleb128 d
        let offset ← getuleb128 d
        let reg := reg.setWidth 32
        pure { st with frame := st.frame.set reg { st.frame.get reg with type := .offset, w0 := offset * cie.dataAlign64 } }
    | 0x11 => do
        let reg ← getuleb128 d
        let offset ← getsleb128 d
        let reg := reg.setWidth 32
        pure { st with frame := st.frame.set reg { st.frame.get reg with type := .offset, w0 := offset * cie.dataAlign64 } }
    | 0x06 => do
        let reg ← getuleb128 d
        pure { st with frame := restoreReg dframe st.frame (reg.setWidth 32) }
    | 0x07 => do
        let reg ← getuleb128 d
        let reg := reg.setWidth 32
        pure { st with frame := st.frame.set reg { st.frame.get reg with type := .undef } }
    | 0x08 => do
        let reg ← getuleb128 d
        let reg := reg.setWidth 32
        pure { st with frame := st.frame.set reg { st.frame.get reg with type := .same } }
    | 0x09 => do
        let reg1 ← getuleb128 d
        let reg2 ← getuleb128 d
        let reg1 := reg1.setWidth 32
        pure { st with frame := st.frame.set reg1 { st.frame.get reg1 with type := .reg, w0 := reg2 } }
    | 0x0a => pure { st with stack := st.frame :: st.stack }
    | 0x0b =>
        match st.stack with
        | [] => fun _ => .ub
        | f :: stack => pure { st with frame := f, stack := stack }
    | 0x0c => do
        let reg ← getuleb128 d
        let offset ← getuleb128 d
        pure { st with frame := { st.frame with cfaReg := reg.setWidth 32,
                                                cfaValue := { st.frame.cfaValue with type := .offset, w0 := offset } } }
    | 0x12 => do
        let reg ← getuleb128 d
        let offset ← getsleb128 d
        pure { st with frame := { st.frame with cfaReg := reg.setWidth 32,
                                                cfaValue := { st.frame.cfaValue with type := .offset, w0 := offset * cie.dataAlign64 } } }
    | 0x0d => do
        let reg ← getuleb128 d
        pure { st with frame := { st.frame with cfaReg := reg.setWidth 32,
                                                cfaValue := { st.frame.cfaValue with type := .offset } } }
    | 0x0e => do
        let offset ← getuleb128 d
        pure { st with frame := { st.frame with cfaValue := { st.frame.cfaValue with type := .offset, w0 := offset } } }
    | 0x13 => do
        let offset ← getsleb128 d
        pure { st with frame := { st.frame with cfaValue := { st.frame.cfaValue with type := .offset, w0 := offset * cie.dataAlign64 } } }
    | 0x16 => do
        let reg ← getuleb128 d
        let length ← getuleb128 d
        let off ← getOffset
        skip length.toNat
        let reg := reg.setWidth 32
        pure { st with frame := st.frame.set reg ⟨.valExpression, BitVec.ofNat 64 off, length⟩ }
    | 0x10 => do
        let reg ← getuleb128 d
        let length ← getuleb128 d
        let off ← getOffset
        skip length.toNat
        let reg := reg.setWidth 32
        pure { st with frame := st.frame.set reg ⟨.expression, BitVec.ofNat 64 off, length⟩ }
    | 0x0f => do
        let length ← getuleb128 d
        let off ← getOffset
        skip length.toNat
        pure { st with frame := { st.frame with cfaValue := ⟨.expression, BitVec.ofNat 64 off, length⟩ } }
    | 0x2e => do
        let _ ← getsleb128 d
        pure st
    | _ => throwExc

/-- One iteration of the loop body of `CIE::execInsns`. dwarf.h:998-1180. -/
def execOne (d : List Byte) (cie : CIE) (dframe : CallFrame) (st : ExecState) : Parse ExecState := do
  let rawOp ← getu8 d
  execOp d cie dframe st rawOp

/-- The loop of `CIE::execInsns`: before each instruction `yield(addr, frame)` may end the run, and so does reaching
`end` exactly. Fuel bounds the number of instructions. dwarf.h:989-1184. -/
def execLoop (d : List Byte) (cie : CIE) (dframe : CallFrame) (yield : BitVec 64 → Bool) (endOff : Nat) :
    Nat → ExecState → Nat → Res CallFrame
  | 0, _, _ => .ub
  | fuel + 1, st, off =>
      if yield st.addr ∨ off = endOff then .ok st.frame
      else do
        let (st, off) ← execOne d cie dframe st off
        execLoop d cie dframe yield endOff fuel st off

/-- `CIE::execInsns`. dwarf.h:989-1184. -/
def execInsns (d : List Byte) (cie : CIE) (dframe : CallFrame) (start endOff : Nat) (addr : BitVec 64)
    (yield : BitVec 64 → Bool) : Res CallFrame :=
  execLoop d cie dframe yield endOff (d.length + 1) ⟨addr, dframe, []⟩ start

/-- `FDE::defaultFrame`. dwarf_frame.cc:279-289. -/
def FDE.defaultFrame (d : List Byte) (f : FDE) : Res CallFrame :=
  execInsns d f.cie CallFrame.init f.cie.instructions f.cie.endOff 0#64 (fun _ => false)

/-- `FDE::execInsns(addr)`. dwarf_frame.cc:291-297. -/
def FDE.execInsns (d : List Byte) (f : FDE) (addr : BitVec 64) : Res CallFrame := do
  let df ← f.defaultFrame d
  Dwarf.execInsns d f.cie df f.instructions f.endOff f.iloc (fun insnAddr => decide (addr.toNat < insnAddr.toNat))

end Pstack.Dwarf
