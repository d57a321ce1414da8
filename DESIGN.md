# Formal model of peadar/pstack in Lean 4

## Layout

* `lean/Verif/Basic.lean` - outcome type `Res` (value / C++ exception / undefined behaviour / failed assert), bytes.
* `lean/Verif/Model/*.lean` - the model, function by function; each definition cites file:lines in /repo.
* `lean/Verif/Spec/*.lean` - small specifications, written without reference to the model (encoders of the file
  formats, meanings of tables and expressions, matching relations, what a kernel or a program may do).
* `lean/Verif/Proof/*.lean` - helper lemmas.
* `lean/Verif/Props/*.lean` - the property theorems. Beside each one a `Cxx_example` theorem exhibits a concrete
  case that meets its hypotheses; `Cxx_not_...` theorems are disproofs (what the code gets wrong, with a witness or
  for a whole class of inputs); `..._partial` theorems prove the part of a property that holds.
* `seeded/LOG.jsonl` - the mutations of the model that were tried against the theorems.

## Trusted base

* Lean 4.33 kernel. Axioms: at most `propext`, `Classical.choice`, `Quot.sound` (printed by `#print axioms` for any
  theorem). No axioms of our own, no `native_decide`, no `bv_decide`.
* The reading of the C++ (nothing is extracted or executed). x86_64, little endian, `ELF_BITS = 64`, as built by
  default on Linux/amd64. `assert` is assumed enabled (a failed assert is a distinct outcome, not a value).
* The specifications of formats: DWARF 2-5, ELF, LEB128, the Linux core notes, JSON (RFC 8259), glob patterns, and the
  assumptions on the kernel spelled out in `Spec/Live*.lean` (ptrace, `/proc/<pid>/task`).

### Modelled

| module | code | what is simplified |
|--------|------|--------------------|
| Reader | libpstack/reader.h, reader.cc: MemReader, FileReader, OffsetReader, CacheReader, ReaderArray, readString | a file or a memory is a partial function from offsets to bytes; page cache at exact sizes; ints are 64 bit where the code wraps |
| DwarfReader | dwarf.h DWARFReader, LEB128 | - |
| Cfi | dwarf_frame.cc: CIE/FDE decode, section walk, eh_frame_hdr search, lazy table, call frame programs | pcrel/datarel/absolute encodings; the section walk reads bytes |
| Regs, Expr, Unwind | dwarf_unwind.cc / dwarfproc.cc, registers: opReg, ExpressionStack, StackFrame::unwind, Process unwind loop, scopeIP | objects and their CFI are looked up through a given function; fbreg inside a frame base recurses for ever in the code |
| LocList, Lines | location lists, line number programs, source lookup | from the bytes of the sections |
| Die, Info, Ranges, Lookup, FindEntry | dwarf_die.cc, dwarf_unit.cc, dwarf.cc, dwarfproc.cc: units, abbreviations, entries, attributes, ranges, unit, function and inlined functions of an address | unit length 32 bits; abbreviations loaded when the unit is opened; no alternate (dwz) and no split (dwo) file; an operation that throws is taken to leave the caches as they were |
| Elf, Core, CoreNotes | elf.cc: program headers, symbols, hash tables, notes; coreproc.cc | an image is its bytes; decompression and debuglink search are not in it |
| Map | process.cc: objects by address | - |
| Live, LiveScan | live.cc: ptrace stop/resume counts, thread scan | kernel = arbitrary outcomes, restricted as said in the spec |
| Json, Flags, Search, Canal | json.h, flags.h, pattern and symbol store of canal.cc | getopt_long modelled for options spelled in full |
| Compressed | lzma.cc, inflate.cc, elf.cc: Section::io | liblzma and libz are functions with a contract; reading the LZMA index and the check sums are left out; a `read` that fails may have written part of the caller's buffer, which is not shown |
| Python | python.tcc, python2.cc, python3.cc; python.cc: version from a file name | memory does not change; the printers of types are scripts of what they write and which objects they print; the C++ stack (10000 levels, and arrays of the size of an object) has room; offsets of fields are parameters where they depend on the version; finding the interpreters, and the types' printers, is left out |
| Images | context.cc: `getImageInPath`, `getImageImpl`, `findImage`, `findDebugImage`, `findDwarf`, `flush`, `linkResolve`; elf.cc: `getDebug` | the files do not change and are given by what `realpath`, `readlink` and `open` say; debuginfod is a function; whether something is an ELF image is a predicate; an object is a number; `debugLoaded` and prelinking are left out |
| Maps | live.cc: /proc/<pid>/maps and smaps | text is a list of characters; opening the file is left out |
| Heap | heap.c, heap.h | memory is a function from addresses to bytes, the real allocator any that answers with unused memory; descriptors are kept apart from it; stack traces, serial numbers and counts of calls are left out; a section under a lock, or on a block nobody else has, is one step |
| Startup | process.cc: `load`, `processAUXV`, `extractDtDebugFromDynamicSegment`, `findRDebugAddr`, `loadSharedObjects`, `addElfObject`; dead.cc: `loadSharedObjectsFromFileNote` | memory does not change while it is read; the ELF images found in memory, by name and by build id are functions; messages, threads and the thread database are left out |
| DieName | process.cc: `buildDIEName`, `PrintableFrame` | the entry of the function and the ELF symbol are given (FindEntry and SymHash have how they are found); `nodienames` is not set |
| Args | process.cc: `removeCV`, `RemoteValue`, `ArgPrint`; dwarfproc.cc: `ExpressionStack::eval` of an attribute; reader.h: `readString` | the process is stopped; memory that is not there is read as short; how floating point numbers are written is a function; the frame base, registers and the index tables of addresses are those of Expr and LocList; what was learned before a caught exception is forgotten |
| StackText | process.cc: `dumpStackText`, `dumpFrameText`, `PrintableFrame`; dwarf_unit.cc: `Unit::getLines`; dwarf_info.cc: `Info::linesAt` | what a location finds (object, symbol, entry, source lines) is given with the frame; the lines of a unit are read again instead of being kept; numbers of frames do not wrap at 2^31 |
| Macros | dwarf_macros.cc; dwarf_unit.cc: `Unit::getMacros` | messages to the debug stream are left out; macros and lines of a unit are read again instead of being kept; a read past the end of the section is undefined (the view has no end); a visitor is a function of what it has been told |
| Public names | dwarf_pubnames.cc; dwarf_info.cc: `Info::pubnames` | the section is given |
| Sections | elf.cc: `sectionHeaders`, `getSection`, `getDebugSection`, `getLinkedSection`, `Section::Section` | what `Section::io` makes of a compressed string section is given; `reserve` does not fail; `getDebug` is in Images |
| Symbols | process.cc: `resolveSymbol`, `resolveSymbolDetail`; elf.cc: `findDebugSymbol`; proc_service.cc: `ps_pglobal_lookup` | how the tables are found and that reading them the first time may fail (see Sections) |
| Command | pstack.cc: `emain` after the options, `doStack`, `main`; process.cc: `Process::load` | whether a process can be opened and traced is any function of the process and the executable; output before a failure in the middle of a trace; the delay of -b |
| Child | pstack.cc: `startChild` | that `fork` fails; a trace that throws after some output; a child other than the command |
| Stacks | process.cc: `getStacks`, `getCoreRegs`; proc.h: `getRegset`, `Lwp`; live.cc: `getTaskName` | exceptions other than `Exception` while registers are read; the frames after the last one of a stack that is not unwound to its end |
| Report | pstack.cc: `pstack` (text); process.cc: `operator<<` of `SigInfo`; dead.cc: `getSignalInfo` | JSON; the text of `Reader`s; how each frame is found out (`FrameIn` is given) |
| Source lines | dwarf_info.cc: `sourceFromAddr`, `linesAt`; dwarf_unit.cc: `sourceFromAddr`, `getLines`; dwarfproc.cc: `CodeLocation::die`, `source` | how the object of an address is found (C54); symbols (C65, C86) are given |
| hdmp | hdmp.cc: `printStack`, `printBlocks`, `dumpHeap`, options of `main` | how an address is looked up is a parameter (C30, C36, C91); opening the process and the symbol `hdbg` (C74, C86) |
| Versions of symbols | elf.cc:148-165, 276-350: `dynamic`, `symbolVersions`, `symbolVersion`, `versionIdxForSymbol` | compressed sections (C85 leaves inflation a parameter) |
| Name of a type | dwarf_die.cc:688-722: `typeName` | nothing |
| Stack use | stackusers.cc:6-46: `processImage` | `main`; output before a crash |
| String search | canal.cc:165-193: `findString`, as steps of a machine | reads that fail; builds without assertions |
| Memory scan | canal.cc:71-129, 195-267, 304-318, 371-406: options -f, -e, `search`, the loop over segments, the histogram | conversion of numbers, -P, verbose messages, word sizes other than 32 and 64 (an error) |
| Report of canal | as for C97 | symbols are given as a list |
| Dump of call frame programs | dump.cc:37-236, cfainsns.h: `dumpCFAInsn` and the loop | text written before an exception; AArch64 names; address lengths other than 8 |
| Dump of symbols and relocations | dump.cc:684-690, 718-771, 819-826 | the other fields of a section, text written before an exception; how the linked section is found is in Sections |
| Stacks as JSON | pstack.cc:34-38, process.cc:35-75, 97-105, 408-455, 1448-1462 | how the place, function, symbol and lines of a frame are found (given; modelled elsewhere), text written before an exception |
| Dump of an ELF object | dump.cc:588-604, 616-657, 840-882 | the texts for sections, notes, versions and dynamic entries (given), how the map of segments is filled |

### Not modelled

The C++ standard library itself (containers are taken at their specified behaviour), the kernel beyond the above,
zlib/liblzma (appear as a given block decompression function), memory allocation failure, iostream formatting flags,
terminal layout of stack traces, how debuginfod works, Go
printers, how Python's interpreter list is found, `proc_service`, the thread database.

## Property by property

| id | model | proof |
|----|-------|-------|
| C01 | `CacheReader::read/getPage/load` over an arbitrary partial memory | invariant "every cached page agrees with the source", loop induction, then induction over histories |
| C02 | same model | invariant on page list: length <= 16, distinct offsets; recency = history |
| C03 | read + string caches, flush | reads: corollary of C01; strings: the string cache is never cleared, negation with a witness |
| C04 | `OffsetReader`, `AbstractMemReader` reads with 64-bit wrap-around | case analysis, composition lemma |
| C05 | `ReaderArray` with its window cache | invariant on the cache window |
| C06 | `Reader::readString` | induction on remaining bytes |
| C07 | `readleb128` at 64 bits with explicit UB for shift >= 64 | induction on encoding |
| C08 | `DWARFReader` fixed width getters and `getlength` | induction on width |
| C09 | `CFI::findFDE` binary search | loop invariant |
| C10 | `ensureFDE` lazy table | invariant over lookup histories |
| C11 | section walk on abstract records at given offsets | induction on records |
| C12 | `decodeAddress` | per-encoding arithmetic |
| C13 | `CIE::execInsns` on bytes | equivalence with row-table semantics |
| C14 | same | induction on nesting |
| C15 | `StackFrame::unwind` | unfolding against a rule-denotation spec |
| C16 | unwind loop over a constructed stack | induction on call depth |
| C17 | unwind loop | fuel/measure argument |
| C18 | `scopeIP` | case analysis |
| C19 | `opReg` register file | finite case analysis lifted over all values |
| C20 | `ExpressionStack::eval` | compiler-correctness induction |
| C21 | comparison operators | negation, plus agreement on the non-negative half |
| C22 | location list selection | induction on entries |
| C23 | `DIE::Raw` decode, firstChild, nextSibling, references, on the bytes of a unit | encoder of trees of entries; invariant "every cached entry is one of the tree at its offset"; histories of visits, purges |
| C24 | parent lookup with caches | invariant over histories |
| C25 | `DIE::attribute` incl. abstract origin and specification, across units | invariant on the whole Info; chain induction; circles never end (negation) |
| C26 | `containsAddress`, `Ranges` | encoders of range lists; negation at range end |
| C27 | `LineInfo::build` | refinement to DWARF state machine |
| C28 | `sourceFromAddr` | induction on rows |
| C29 | `getSegmentForAddress` | lower_bound lemma, invariant on last-hit cache |
| C30 | `findSym`/`findSymbolByAddress` | induction on table |
| C31 | SysV and GNU hash | chain induction |
| C32 | notes iteration | serialisation round trip |
| C33 | `CoreReader::read` | bytewise spec, loop invariant |
| C34 | stop/resume reference counts | invariant over histories with arbitrary ptrace outcomes |
| C35 | `stopProcess` | fixpoint argument over scan oracle |
| C36 | `findSegment` | map lookup lemma; negation at first byte |
| C37 | heap.c: the sections of `malloc` and `free` between locks, and the functions made of them | invariant over all interleavings of the sections, and over histories of calls; negation for `realloc` to a smaller size |
| C38 | the same, with guards, quarantine and `assertheap` | the invariant says what every guard holds; never reported, reported; negations |
| C39 | JSON printer | parser round trip; negation for control characters |
| C40 | `globmatchR` | equivalence with inductive matching relation |
| C41 | `SymbolStore` | map lemma, negation for abutting symbols |
| C42 | `Flags` | invariant over registrations |
| C43 | `LzmaReader::read`, `InflateReader`, `Section::io`; liblzma's and libz's functions are given, with what their headers say of them (`Spec/Compressed.lean`) | induction over the rest of the range; invariant of the inflate loop with a measure |
| C44 | `procAddressSpace`, `nextTok`, `hex2int` | round trip with a printer of what proc(5) describes, over all mappings; partial: inode, first flag and fileEnd are wrong in the code |
| C45 | `LongPrinter` | digit induction; partial, with what is printed for every other number |
| C46 | composition of pieces | one piece; negation for two |
| C47 | `ExpressionStack::eval` | measure: the model's allowance is never used up |
| C48 | cache of unwind rules | invariant over histories |
| C49 | unwinding after a failure | negation with a witness; partial theorem for readable memory |
| C50 | frame pointer fallback | case analysis, end of chain |
| C51 | canal word scan and histogram | induction on words; permutation with the specification |
| C52-C54 | notes of a core: threads, registers, files, address space | serialisation of notes, induction on note list |
| C55 | conversions of attribute values | per-form relation `HasNumber`/`HasString`, invariant on cached tables |
| C56 | units and entries by offset | same invariant as C25 |
| C57 | `Info::lookupUnit` from .debug_aranges and roots | encoder of sets of ranges; range map lemma; negations |
| C58 | `DIE::findEntryForAddr`, `CodeLocation::die` | induction on trees of entries; an inductive specification of what entries say and which are reached; negation for the end of a range |
| C59 | the loop for inlined functions in `PrintableFrame` | induction on the number of entries below; chains, and nested sets of entries |
| C60 | heap.c as above | the invariant keeps blocks apart; frame conditions of every section; negations for overflow and lack of memory |
| C61 | `getLine` | induction over steps, as CPython's compiler splits them into bytes |
| C62 | `DictPrinter` of Python 3 and 2 | induction over the table; partial, negations for split tables, Python 2 and unreadable tables |
| C63 | `PythonPrinter::print` and all printers | measure: addresses not seen yet; invariant: what is expanded is seen; an inductive specification of what is to be written |
| C64 | `printThread`, `printInterp`, `printInterpreters` | induction over lists of threads; negation for lists of interpreters |
| C65 | `getPythonVersionFromFilename` | case analysis; negation for versions from 3.10 on |
| C66 | all of the above, without arguments and locals; then with them, and with modules | induction over frames, threads and interpreters |
| C68 | arguments in `FramePrinter` | the arguments as a list of pieces of text and objects, which the printer's script is proved to write; induction on each kind of argument |
| C69 | variables in `FramePrinter`, `printTupleVars` | the same, by section |
| C70 | `getImageInPath`, `getImageImpl`, `findImage`, `findDebugImage`, `Elf::Object::getDebug` | induction over the directories; the best of a list of paths as specification; partial, negations for absolute names, missing files and long interpreters |
| C71 | the caches and `flush`, `findDwarf` of context.cc | invariants over all histories of lookups, flushes and requests for debug information; negations for names |
| C72 | `linkResolve` | chains of links as an inductive relation; negation for circles |
| C73 | --no-local-files in the same | the files opened are part of the state; negation for debug links |
| C74 | opening a process: auxiliary vector, program headers, dynamic section, link map | what is in memory is specified by encoders of the structures; induction over each list; partial: negations for programs moved without PT_PHDR, static ones that are moved, circular link maps |
| C75 | the executable in `processAUXV` | the same; partial, negation for notes behind the first of a segment |
| C76 | `buildDIEName` on the bytes of .debug_info | scopes and declarations are inductive relations on the tree of entries; induction on them, with the invariant on what is remembered (C25); partial, negation for unions |
| C77 | `PrintableFrame` | C76, inherited attributes and ranges (C56, C26), the search for inlined functions (C59); partial, negation for addresses before the first range |
| C78 | `RemoteValue` and its operator | induction on the text of an object (Spec/Args.lean: types, sizes, bytes, pointers) with the attributes of C56; partial, negations for unsigned numbers, registers that are 0 or hold small types, memory that is not there, restrict and atomic types, long double |
| C79 | `ArgPrint`, `eval` of an attribute | C78, the children of an entry (C57), expressions (C20) and lists (C22); partial, negations for lists without an entry, computed values, indexes of lists |
| C80 | `dumpFrameText` | the name and offset (C76, C77), the chain of inlined functions (C59; it is unique), the files of the line table (C27), arguments (C79), joined by what each leaves remembered; partial, negations for inlined functions without sources and for files that are not there |
| C81 | `dumpStackText` | induction over the frames, with what is remembered of each object growing; partial as C80 is |
| C82 | `visit5`, `getMacros` | induction over what a list says (imports included), for a loop with fuel; partial, negations for lists that do not end, have no line table, have entries of vendors, have wide offsets, or import themselves |
| C83 | `visit4` | induction over the list; partial, negations for visitors that stop at definitions and for entries of vendors |
| C84 | `PubnameUnit`, `pubnames` | induction over the sets and the names; partial, negations for sets of 64k and more, for 64-bit offsets, and for sections that end early |
| C85 | `getSection` and what it uses | induction over the headers and the names; the search unrolled for arbitrary names; partial, negations for sections that share a name, for short names, for numbers out of range, and for files that end early |
| C86 | the lookup and the cache of names | invariant of the caches over all histories; induction over the symbols and over the objects; partial, negations for symbols that share a name, for the object that is named, and for tables that cannot be read |
| C87 | the loop over the arguments, the choice of stacks, the exit status | induction over the arguments and digits; partial, negation for an interrupt, and for -A when Python's stacks fail |
| C88 | the splitting of the command, `fgets` and `strtoull` on the status file, the masks, the loop | induction over the words, the lines and the stops; partial, negations for three words or more, for signals that by default do not end a process, for real-time signals, for the exit status and for a child that is gone |
| C89 | the loops over lwps and threads, the layout of `user_regs_struct` and `user_fpregs_struct` against the DWARF numbers of the registers, the parsing of `stat` | induction over the lwps and the threads; the registers of a core come from C52, the frames from C16; partial, negations for lwps without floating point registers and names with a newline |
| C90 | the header, the record of the signal, the table of codes, the loop over the stacks | induction over the stacks, with the caches kept right by C80's invariant; induction over the notes of a core; partial: what C80 and C81 miss, reasons out of the tables; negations for faults that were sent by a process and for code 1 of signals other than SIGIO |
| C91 | lookup of the unit, its root, its line table and the row; the function; the text of the frame with these | composes the invariants of C57 (lookups), C58 (search), C27/C28 (rows), C80/C81 (text); induction over the frames; partial: what those miss |
| C92 | the lists in memory, the text of blocks and stacks, the whole report | induction over the list and over the frames; partial: descriptors at the end of memory, blocks no longer in memory, circles, crash stacks longer than block stacks (negations) |
| C93 | .dynamic, .gnu.version_r, .gnu.version_d, .gnu.version | induction over the linked records, invariant of what is kept over histories; partial: entries whose own index has bit 15 (negation) |
| C94 | types as entries, their types, their children | induction over the derivation of the name, with the loop over the children; partial: other types made of another (negation), types made of themselves (negation) |
| C95 | the run of a call frame program with an observer, the loop over symbols | induction over instructions with the relation of C13, induction over symbols with the invariant of C29; partial: symbols in no segment, functions without an entry, functions inside an entry (negations) |
| C96 | the two nested loops as a step function over the buffer and positions | invariants of the steps; exactly when it ends is proved (`C96_ends`); partial: most segments (negations) |
| C97 | the array of words over a view of a segment, the loop over segments | induction over words and segments, with C05; partial: segments not of whole words, the last address, -e before -f (negations) |
| C98 | the scan with a store of symbols (C41, C51), the sort as any function that sorts | induction over words with the counts as a function; partial: symbols that touch, -o 0 and offsets beyond the symbol (negations) |
| C99 | the switch over instructions, the loop, the JSON printer of C39 | one case per instruction over the encodings of Spec/Cfa, induction over the program, JSON round trip (C39); partial: negative factored offsets, steps from 2^31, `DW_CFA_val_offset` (negations) |
| C100 | the array of entries (C05), their names (C06), the JSON printer (C39) | induction over the entries; partial: names of some types and bindings, addends (negations), names C39 excludes |
| C101 | the trees of threads and frames over given facts, the JSON printer (C39) | induction over the threads and frames; partial: frames before the start of their function, unknown offsets (negations), strings C39 excludes |
| C102 | the tree of the object and its segments, the JSON printer (C39) | induction over the segments; partial: unknown types and brands (negations), strings C39 excludes |
| C67 | `readString<2>`, `readString<3>` | induction; negations for NUL and wide characters |

## What the code gets wrong (proved as negations)

Readers: the string cache survives a flush (C03); a view is not clamped to its reader, and a window whose request wraps
reads outside of itself (C04); a string that is not terminated inside of a window or a memory reader is read past its
end (C06); LEB128 numbers of more than ten bytes are undefined behaviour (C07).
Unwind tables: a FDE that names itself as its CIE recurses for ever (C11); DW_EH_PE_absptr is decoded wrongly (C12);
advances wrap at 32 bits and DW_CFA_val_offset is refused (C13); unmatched restore_state is undefined (C14).
Registers: writes to registers 60, 61, 67-154 are dropped, mm registers are stored in xmm (C19).
Expressions: unsigned comparisons (C21), signed remainder, undefined behaviour for underflow, division by zero, large
shifts and overflowing products, stack_value ignored, entry_value (C20); pieces in reverse (C46).
Location lists: start_length with a base, other kinds, v4 base entries (C22).
Entries: forms data16/indirect/*_sup and type units are not read, an entry kept over purge loses its place (C23, C24);
circles of references do not end, offsets of 2^31 and more are sign extended (C25); forms without conversion (C55); the
address after a range is in it, startx_endx is refused (C26); the unit map remembers the start of a range where it
means its length for units with lists, so gaps are found and low addresses are not (C57); the function whose range ends at
an address is found instead of the one that has it (C58).
Line tables: sticky prologue/epilogue/discriminator marks, fixed_advance, unknown opcodes, VLIW, empty directories, a
single file (C27); a table that is not ended is undefined behaviour (C28).
ELF: empty segments hide others (C29); symbols that end at 2^64 (C30); the ELF hash of names with 8-bit characters
(C31); empty note segments and nameless notes (C32).
Cores: first byte of an object, patched and truncated segments, a read that does not end (C33, C36).
Live: unmatched resumes and lingering accounts (C34); a thread that cannot be stopped (C35).
Others: unwinding loses all frames if the fallback cannot read (C49); JSON control characters, astral and invalid UTF-8
(C39); symbols that touch (C41).
Compressed contents: after an LZMA block could not be decoded its bytes read as zeros; zlib streams of 4 GiB; the length of `.zdebug_` streams is taken to be that of their contents, and a mapped object is read beyond its end (C43).
Maps of a process: inodes, written in decimal, are read as hexadecimal; the first flag of every `VmFlags:` line is lost; `fileEnd` stays 0, and `canal` on a live process takes the size of a segment from it (C44).
Heap debugger: a block that `realloc` makes smaller counts as before (C37); with HDMP_FILL eight bytes are compared with a pattern of four,
and every block of four bytes or more is reported; at level 2 the calls of other threads are reported while one is in
`free`; at level 0 the first block is freed as if it had guards; the four bytes before a block are not guarded; a block
freed again after it has left the quarantine is not seen (C38); the product in `calloc`, sizes near 2^64 and a real allocator
without memory are not looked at (C60).
Noted in the code but not in the model: `posix_memalign` never fails; HDMP_LEVEL=2 does not turn filling on, although the default says so;
memory handed out during start-up is freed as if it had guards;
 64-bit .debug_frame CIE ids; the tests for DW_EH_PE_omit are dead; pcrel search tables;
attribute iteration order changes after a lookup; entries with both a low address and ranges, whose ranges are
remembered whatever their base was; `getUnit` leaves a null unit behind when it throws.
Python: integers outside of 64 bits are printed as their remainder or are undefined behaviour (C45); dictionaries of Python 2 lack the last place of the table, those with split tables show keys they do
not have, and a table that cannot be read is used uninitialised (C62); lists and tuples are cut after a hundred members without notice, a type that could not be read is used uninitialised for its second
object, and the level is wrong after an exception (C63); a circular list of interpreters is listed for ever (C64); Python 3.10 is taken for 3.1 (C65); strings end at the first NUL, and wide characters are not
shown (C67); the arguments of a call are written as `f(a, =(args, ...)` and those of a call without any as `f(=()` (C68).
Images: extra directories for programs and debug files have no effect on absolute names, so debug links below /usr/lib/debug are never found; a build id that is missing from the directory given last is
not looked for in the others; interpreters of scripts are cut after 62 characters (C70); images found by name are not remembered and every lookup makes another; relative names and build ids share one
cache (C71); links in a circle are followed for ever (C72); --no-local-files does not keep debug links from being opened (C73).

Startup: a program that is moved, dynamic and without PT_PHDR cannot be opened, even a core with a list of its files; a static position-independent one is recorded at address 0; a circular link map is
followed for ever (C74); a build id is only found if it is the first note of its segment (C75).
Names: unions are left out of qualified names (C76); an address in a part of a function that lies before its first range (`.cold` parts at lower addresses) is shown with an offset close to 2^64 (C77).

Values: unsigned numbers are shown as signed; an argument in a register is shown as "(null)" if the register is 0, and with all 64 bits of it if its type is smaller; memory that cannot be read is shown as 0;
`restrict` and atomic types are not seen through; a `long double` shows nothing after the `=` (C78). An argument whose list of locations has nothing for the instruction is shown as "(null)" instead of as
not known; a computed value (DW_OP_stack_value) is taken for an address, and what is there is shown; a location with an index of a list (DW_FORM_loclistx) throws outside of the `try`, and the
exception ends the output of the stack (C79).

Frames: with `nosrc` (or a unit without lines) the line of an inlined function is not ended, and the next is on the same line; if the source of the address is not known, an inlined function is shown
" at :-1"; the number of a file in DW_AT_call_file is not checked against the table, nor is that of its directory (C80).

Macros: a list without end is read past the section, and one that imports itself never ends; `start_file` in a list without line table dereferences null; operands of vendors' entries are read as entries, though the
header says how long they are; text by position is read with the offset size of the unit, not that of the list; the offset of the line table is kept in an `int` (C82). In .debug_macinfo, a visitor that says to stop
at a definition is not heeded, and vendors' entries are not skipped (C83).

Public names: the length of a set is kept in 16 bits, so that names of larger ones are lost and the rest is taken for sets; 64-bit sets are not known; after an exception, what had been read is given as the whole (C84).

Sections: of sections with the same name only the last is looked at, even if only an earlier one has the type asked for; if the headers cannot be read the first search throws and the next takes the first of no headers; a name that is an end of ".dwo" is compared with what is before it in memory; the number of a linked section, and of the one with the names, is not checked (C85).

Symbols by name: a definition in the symbol table is not found if a reference of the same name follows it; a lookup for the thread library finds a symbol of libc.so.6 at a lower address although the object that is named has it; if the symbol table cannot be read the first lookup throws, and later ones take what had been read by then for all there is (C86).

The command: after an interrupt nothing is shown for the arguments that follow, and the exit status is 0; with -A a process whose Python stacks cannot be shown does not get its native stacks shown either; a file whose name is a number is taken for a process (C87).

Running a command: with three words or more every argument but the first and the last has some of the rest of the command at its end (`substr(off, pos)` takes a length, not an end); a child that gets SIGCHLD, SIGWINCH or another signal that is ignored by default is killed; a real-time signal is undefined behaviour (`1 << (stopsig - 1)`); the exit status is 0 even if the program could not be run; if the child is gone when it is to be continued, pstack aborts (C88).

Stacks: a thread for which no floating point registers are recorded is not shown at all, though its stack could be unwound without them (`getCoreRegs` reads both or throws); a thread whose name has a newline in it has no name, for only the first line of `stat` is read (C89).

How a process ended: of SIGSEGV, SIGILL, SIGFPE, SIGBUS, SIGTRAP and SIGSYS sent by kill, tkill, sigqueue or the kernel nothing is said, for only the table of this signal is looked at (C90_not_sent); codes 1 to 6 of every signal without such a table are taken for those of SIGIO, so that SIGCHLD for a child that exited is shown as "data input available" (C90_not_io); `HAVE_SIGXX_NP` is not what is defined, so that names of signals are never shown; `si_pid` is shown also for faults, where it is half of the address.

The line of an address is looked up in one unit only: if .debug_aranges names a unit for an address that is not in the ranges of its root, no line is shown although the line table of the unit has a row for it (`SourceOf.outside`).

hdmp reads one frame more than a descriptor has: a descriptor at the end of mapped memory, and all after it, are silently left out (`C92_not_last`). Descriptors of large blocks are kept when the block is released, but the words around the block are read nevertheless: if its memory has been given back the report ends with an exception (`C92_not_big`). The stack of the failure, recorded with up to 512 frames, is cut at HDMP_STACKDEPTH, 16 if it is not set (`C92_not_crash`).

The index of a symbol is looked up without bit 15, but those of needed versions are stored with it: a needed version that is hidden is not found and the lookup throws `out_of_range` (`C93_not_hidden`).

A type without a name that is not a pointer, reference, const, volatile or function type (restrict, rvalue reference, atomic, array) is called `(unhandled tag N)` (`C94_not_handled`, `C94_handled_example`), and for a type that refers to itself `typeName` recurses until the stack is exhausted (`C94_not_circle`, `C94_circle_example`).

`stackusers` uses a null pointer if a symbol with a size is in no loadable segment, as symbols of thread-local data are (`C95_not_segment`), or if a function has no frame entry (`C95_not_entry`); for a function that is not at the start of its entry's range the distance is wrong (`C95_not_inside`).

`findString` searches from the start of its buffer each time and compares with the buffer's end: a string that is in the first max(4096, 4n) bytes of a segment has its address written for ever (`C96_not_once`), and so has the end of a shorter segment that does not have the string (`C96_not_there`). It ends only for segments that fill the buffer and are not longer than two buffers, without the string in the first (`C96_ends`, `C96_not_long`); the rest of such a segment is not searched (`C96_not_rest`).

`canal` skips a segment that is not a multiple of the word size (`C97_not_multiple`), never finds 2^64-1 with `-f` (`C97_not_last`), and `-e` without `-f` before it changes an element that an empty vector does not have (`C97_not_order`).

`canal -o 0` is as if no offset was given (`C98_not_zero`); a word that is the address of a symbol is not counted if another symbol ends there (`C98_not_touching`); an offset beyond the end of a symbol is never found (`C98_not_beyond`).

The dump shows negative factored offsets of `DW_CFA_def_cfa_sf`, `DW_CFA_def_cfa_offset_sf` as large positive numbers (`C99_not_negative`), steps of 2^31 or more as negative ones (`C99_not_step`), and ends with an exception at `DW_CFA_val_offset` and `DW_CFA_val_offset_sf` (`C99_not_val_offset`).

The dump shows STT_COMMON, STT_TLS, STT_GNU_IFUNC, STB_GNU_UNIQUE and STB_HIPROC under other names (`C100_not_named`), and does not show the addends of relocations (`C100_not_addend`).

In the JSON of stacks, a frame that lies before the start of the first range of its function (as split-off cold code may) has an offset near 2^64 (`C101_not_before_start`), and an offset that is not known is written as 18446744073709551615 (`C101_not_unknown`).

The dump of an object of a type above ET_CORE, or with an EI_OSABI above 12, is undefined behaviour: an array is read beyond its end, or a string made from a null pointer (`C102_not_defined`). Segments of types such as PT_GNU_PROPERTY are shown as "invalid program header type", and two such types give an object with two members of the same name (`C102_not_named`).
