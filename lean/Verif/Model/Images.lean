import Verif.Basic
/-
Model of how ELF images are found: context.cc, and Elf::Object::getDebug of elf.cc.

A path is a list of characters. The files of the machine do not change; they are what the system calls say of them. An image is known by
a number (which object it is), the path it was opened by and whether it is a debug image. What is written to `*debug`, and the counters, are left out.
-/
namespace Pstack.Images

abbrev Path := List Char
abbrev BuildId := List Byte

/-- What `realpath` says. -/
inductive Real
  | path (p : Path)
  /-- It failed with ENOENT. -/
  | noent
  /-- It failed otherwise. -/
  | error
  deriving DecidableEq

/-- What `readlink` says. -/
inductive Link
  | target (p : Path)
  /-- It failed with EINVAL: this is not a link. -/
  | einval
  | error
  deriving DecidableEq

/-- The files, and debuginfod. -/
structure Files where
  realpath : Path → Real
  readlink : Path → Link
  /-- What is in a file, if it can be opened and mapped (so not of an empty one). -/
  content : Path → Option (List Char)
  /-- Whether the constructor of `Elf::Object` accepts this. -/
  isElf : List Char → Bool
  /-- The path and content of what debuginfod has for a build id, a debug image if the flag is set; or it has nothing, or is not used (`getDebuginfodClient`). -/
  fetch : Bool → BuildId → Option (Path × List Char)

/-- An `Elf::Object`. -/
structure Image where
  id : Nat
  file : Path
  debug : Bool
  deriving DecidableEq

/-- libpstack/context.h:19-31, 61-67 -/
structure Options where
  noBuildIds : Bool := false
  noLocalFiles : Bool := false
  noExtDebug : Bool := false
  debugPrefixes : List Path
  debugBuildIdPrefixes : List Path
  exePrefixes : List Path
  exeBuildIdPrefixes : List Path

/-- A `std::map`, latest entries first. -/
abbrev Cache (κ α : Type) := List (κ × α)

def Cache.get {κ α : Type} [DecidableEq κ] (c : Cache κ α) (k : κ) : Option α := (c.find? (·.1 = k)).map (·.2)
def Cache.put {κ α : Type} [DecidableEq κ] (c : Cache κ α) (k : κ) (v : α) : Cache κ α := (k, v) :: c.filter (·.1 ≠ k)

/-- The caches of a `Context`, the number of images there have been, and the files that have been opened, latest first. libpstack/context.h:44-53 -/
structure St where
  imageByName : Cache Path (Option Image) := []
  debugImageByName : Cache Path (Option Image) := []
  imageByID : Cache BuildId (Option Image) := []
  debugImageByID : Cache BuildId (Option Image) := []
  /-- `dwarfCache`: an `Info` is known by a number. -/
  dwarfCache : Cache Nat Nat := []
  made : Nat := 0
  madeInfo : Nat := 0
  opened : List Path := []
  deriving DecidableEq

/-- `operator /` of `std::filesystem::path`. -/
def join (dir name : Path) : Path :=
  if name.head? = some '/' then name
  else if dir = [] ∨ dir.getLast? = some '/' then dir ++ name
  else dir ++ ['/'] ++ name

/-- `isspace`, in the C locale. -/
def isSpace (c : Char) : Bool := c = ' ' ∨ c = '\t' ∨ c = '\n' ∨ c = '\x0b' ∨ c = '\x0c' ∨ c = '\r'

/-- What a script says its interpreter is: the text of the first 64 characters. context.cc:255-264 -/
def interpreter (content : List Char) : Path := (((content.take 64).drop 2).dropWhile isSpace).takeWhile (!isSpace ·)

/-- Whether this is a script. context.cc:253-255 -/
def isScript (content : List Char) : Bool := 3 < (content.take 64).length ∧ content.take 2 = ['#', '!']

/-- A new image. -/
def St.make (s : St) (file : Path) (debug : Bool) : St × Image := ({ s with made := s.made + 1 }, ⟨s.made, file, debug⟩)

/-- The file is opened; the constructor of its reader throws if it cannot be. reader.cc:210-224 -/
def openFile (fs : Files) (s : St) (p : Path) : St × Option (List Char) := ({ s with opened := p :: s.opened }, fs.content p)

/-- `openImage`, without a file descriptor; none: it throws. context.cc:222-225 -/
def openImage (fs : Files) (s : St) (p : Path) (debug : Bool) : St × Option Image :=
  let (s, c) := openFile fs s p
  match c with
  | none => (s, none)
  | some c => if fs.isElf c then let (s, i) := s.make p debug; (s, some i) else (s, none)

/-- The path that is tried for a directory; none if the search ends there. context.cc:240-249 -/
def target (fs : Files) (resolve : Bool) (p : Path) : Option Path :=
  if resolve then
    match fs.realpath p with
    | .path q => some q
    | .noent => none
    | .error => some p
  else some p

/-- What comes of one directory. -/
inductive Try
  /-- The function returns this. -/
  | found (i : Image)
  /-- The loop ends with this. -/
  | script (i : Image)
  /-- The next one is tried. -/
  | next

/-- context.cc:250-278 -/
def tryPath (fs : Files) (s : St) (path : Path) (isDebug : Bool) : St × Try :=
  let (s, c) := openFile fs s path
  match c with
  | none => (s, .next)
  | some c =>
      if !isDebug && isScript c then
        match openImage fs s (interpreter c) false with
        | (s, some i) => (s, .script i)
        | (s, none) => (s, .next)
      else if fs.isElf c then let (s, i) := s.make path isDebug; (s, .found i)
      else (s, .next)

/-- How the loop ends. -/
inductive Search
  /-- The function returned this. -/
  | returned (i : Option Image)
  /-- The loop is over. -/
  | over (i : Option Image)

/-- The loop over directories, which are given in the order they are tried in. context.cc:239-279 -/
def searchLoop (fs : Files) (name : Path) (isDebug resolve : Bool) : List Path → St → St × Search
  | [], s => (s, .over none)
  | dir :: dirs, s =>
      match target fs resolve (join dir name) with
      | none => (s, .returned none)
      | some path =>
          match tryPath fs s path isDebug with
          | (s, .found i) => (s, .returned (some i))
          | (s, .script i) => (s, .over (some i))
          | (s, .next) => searchLoop fs name isDebug resolve dirs s

/-- The container of names that is used. -/
def St.names (s : St) (isDebug : Bool) : Cache Path (Option Image) := if isDebug then s.debugImageByName else s.imageByName
def St.putName (s : St) (isDebug : Bool) (name : Path) (i : Option Image) : St :=
  if isDebug then { s with debugImageByName := s.debugImageByName.put name i } else { s with imageByName := s.imageByName.put name i }
def St.ids (s : St) (isDebug : Bool) : Cache BuildId (Option Image) := if isDebug then s.debugImageByID else s.imageByID
def St.putId (s : St) (isDebug : Bool) (b : BuildId) (i : Option Image) : St :=
  if isDebug then { s with debugImageByID := s.debugImageByID.put b i } else { s with imageByID := s.imageByID.put b i }

/-- `getImageInPath`. context.cc:231-288 -/
def getImageInPath (fs : Files) (s : St) (paths : List Path) (name : Path) (isDebug resolve : Bool) : St × Option Image :=
  match (s.names isDebug).get name with
  | some i => (s, i)
  | none =>
      match searchLoop fs name isDebug resolve paths.reverse s with
      | (s, .returned i) => (s, i)
      | (s, .over i) => (s.putName isDebug name i, i)

/-- Two hexadecimal digits. libpstack/stringify.h:17-22 -/
def hexByte (b : Byte) : List Char := [(b.toNat / 16).digitChar, (b.toNat % 16).digitChar]

/-- The name of the file for a build id. context.cc:325-333 -/
def idPath (b0 : Byte) (rest : BuildId) (isDebug : Bool) : Path :=
  join (hexByte b0) (rest.flatMap hexByte ++ (if isDebug then ".debug".toList else []))

/-- `getImageImpl`. context.cc:309-356 -/
def getImageById (fs : Files) (o : Options) (s : St) (bid : BuildId) (isDebug : Bool) : St × Res (Option Image) :=
  match bid with
  | [] => (s, .ok none)
  | b0 :: rest =>
      if o.noBuildIds then (s, .ok none)
      else match (s.ids isDebug).get bid with
      | some i => (s, .ok i)
      | none =>
          let (s, res) := if o.noLocalFiles then (s, none)
            else getImageInPath fs s (if isDebug then o.debugBuildIdPrefixes else o.exeBuildIdPrefixes) (idPath b0 rest isDebug) isDebug true
          match res with
          | some i => (s.putId isDebug bid (some i), .ok (some i))
          | none =>
              match fs.fetch isDebug bid with
              | none => (s.putId isDebug bid none, .ok none)
              | some (p, c) =>
                  if fs.isElf c then let (s, i) := s.make p isDebug; (s.putId isDebug bid (some i), .ok (some i))
                  else (s, .exc)

/-- `findImage`. context.cc:292-297 -/
def findImage (fs : Files) (o : Options) (s : St) (name : Path) : St × Option Image :=
  if o.noLocalFiles then (s, none) else getImageInPath fs s o.exePrefixes name false false

/-- `findDebugImage`. context.cc:358-361 -/
def findDebugImage (fs : Files) (o : Options) (s : St) (name : Path) : St × Option Image := getImageInPath fs s o.debugPrefixes name true false

/-- What is left of a map after `flush`. context.cc:181-189 -/
def flushMap {κ : Type} (c : Cache κ (Option Image)) (i : Option Image) : Cache κ (Option Image) := c.filter (·.2 ≠ i)

/-- `flush`. The key of a null pointer is not in `dwarfCache` (see `findDwarf`). context.cc:177-195 -/
def flush (s : St) (i : Option Image) : St :=
  { s with
    imageByName := flushMap s.imageByName i
    debugImageByName := flushMap s.debugImageByName i
    imageByID := flushMap s.imageByID i
    debugImageByID := flushMap s.debugImageByID i
    dwarfCache := match i with
      | none => s.dwarfCache
      | some i => s.dwarfCache.filter (·.1 ≠ i.id) }

/-- `findDwarf` of an image. An `Info` of a null pointer is not defined. context.cc:138-150, dwarf_info.cc:19-25 -/
def findDwarf (s : St) : Option Image → St × Res Nat
  | none => (s, .ub)
  | some i =>
      match s.dwarfCache.get i.id with
      | some d => (s, .ok d)
      | none => ({ s with dwarfCache := s.dwarfCache.put i.id s.madeInfo, madeInfo := s.madeInfo + 1 }, .ok s.madeInfo)

/-- `parent_path` of a path that does not end in a slash: what is before the last one (and it alone if there is nothing before). -/
def parentPath (p : Path) : Path :=
  let d := (p.reverse.dropWhile (· ≠ '/')).dropWhile (· = '/')
  if d = [] then (if p.head? = some '/' then ['/'] else []) else d.reverse

/-- `Elf::Object::getDebug`: the debug image for one with build id `bid` and debug link `link`, which was opened as `file`. What `debugLoaded` remembers is left out, as are the adjustments for
prelinked images. elf.cc:595-615 -/
def getDebug (fs : Files) (o : Options) (s : St) (bid : BuildId) (link : Option Path) (file : Path) : St × Res (Option Image) :=
  if o.noExtDebug then (s, .ok none)
  else
    let (s, r) := getImageById fs o s bid true
    match r with
    | .ok (some i) => (s, .ok (some i))
    | .ok none =>
        match link with
        | none => (s, .ok none)
        | some l => let (s, i) := findDebugImage fs o s (join (parentPath file) l); (s, .ok i)
    | r => (s, r)

/-- The name a link leads to. context.cc:388-396 -/
def follow (name t : Path) : Path :=
  if t.head? = some '/' then t
  else (name.reverse.dropWhile (· ≠ '/')).reverse ++ t

/-- `linkResolve`; `fuel` is the number of times its loop may run. The target is cut to the buffer. context.cc:371-400 -/
def linkResolve (fs : Files) (orig : Path) : Nat → Path → Option Path
  | 0, _ => none
  | n + 1, name =>
      match fs.readlink name with
      | .einval => some name
      | .error => some orig
      | .target t => linkResolve fs orig n (follow name (t.take 1023))

end Pstack.Images
