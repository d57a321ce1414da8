{"id": "C01", "title": "Page cache is transparent", "statement": "A caching reader layered over an unchanging source returns, for every read in every sequence of reads, exactly the bytes that the source itself holds at that offset, up to the requested count or the first unmapped byte; which earlier reads were made never changes a result.", "quantifier": "all sources, all offsets and counts, all finite histories of reads", "why_tests_cant": "The answer depends on which pages earlier reads left in the cache, which were evicted and in which order; a test fixes one history.", "anchors": ["libpstack/reader.h: CacheReader", "reader.cc: CacheReader::read, CacheReader::getPage, CacheReader::Page::load"]}
{"id": "C02", "title": "Page cache is bounded and keeps the most recent pages", "statement": "However it is used, a caching reader never holds more than 16 pages and never two pages for one offset; the pages it holds are in most-recently-used order, so a page touched among the last 16 distinct successful page loads is served without touching the source again.", "quantifier": "all sources (including failing ones), all histories of reads and flushes", "why_tests_cant": "Eviction and duplicate bugs only show for particular long access patterns.", "anchors": ["reader.cc: CacheReader::getPage, CacheReader::flush"]}
{"id": "C03", "title": "Nothing stale survives a flush", "statement": "After flushing a caching reader, every read and every string read reflects what the source holds now, not what it held before the flush (a resumed process may have rewritten its memory).", "quantifier": "all sources before and after the change, all histories before the flush", "why_tests_cant": "Requires a history in which the source changes at the right moment between two reads of the same place.", "anchors": ["reader.cc: CacheReader::flush, CacheReader::readString, CacheReader::read", "live.cc: LiveProcess::resume"]}
{"id": "C04", "title": "A window reads exactly its slice of the underlying data", "statement": "Reading count bytes at offset o of a window [b, b+n) onto another reader gives exactly the underlying bytes b+o .. b+min(o+count, n), never a byte outside the window, and an offset beyond the window raises an exception; windows on windows compose by adding their bases.", "quantifier": "all underlying contents, window bases and lengths, offsets and counts", "why_tests_cant": "Boundary arithmetic over the full 64-bit range; the interesting cases are at the ends and on overflow.", "anchors": ["reader.cc: OffsetReader::read, OffsetReader::OffsetReader, AbstractMemReader::read, AbstractMemReader::view", "libpstack/reader.h: OffsetReader::view"]}
{"id": "C05", "title": "Array view of a reader yields every element once and in order", "statement": "Iterating a typed array view over a reader yields element i as decoded from bytes base+i*size, for i = 0..n-1 with n the number of whole elements, and then stops; random access returns the same element whatever was accessed before.", "quantifier": "all contents, element sizes, internal cache sizes, and access histories", "why_tests_cant": "The internal window cache makes the answer depend on previous accesses.", "anchors": ["libpstack/reader.h: ReaderArray, ReaderArray::getitem, ReaderArray::iterator"]}
{"id": "C06", "title": "String reads stop at the first NUL", "statement": "Reading a string through any reader - a file, a block of memory or a window on either - returns exactly the bytes from that offset up to, not including, the first NUL byte, or up to the end of the reader's data if there is none; the start of a file reads as \"(null)\".", "quantifier": "all contents and offsets", "why_tests_cant": "Quantifies over all byte contents and positions of the terminator.", "anchors": ["reader.cc: Reader::readString, AbstractMemReader::readString", "reader.h: OffsetReader::readString"]}
{"id": "C07", "title": "LEB128 decoding inverts encoding", "statement": "Reading an unsigned (signed) LEB128 number from bytes that begin with the standard encoding of any 64-bit unsigned (signed) value returns that value and the exact number of bytes the encoding occupies, whatever bytes follow; padded, non-minimal encodings within 64 bits decode to the same value.", "quantifier": "all 2^64 values of both signednesses, all padding lengths up to 64 bits, all trailing bytes", "why_tests_cant": "2^64 values and unbounded suffixes; sign extension differs at every byte-length boundary.", "anchors": ["libpstack/reader.h: readleb128", "reader.cc: Reader::readULEB128, Reader::readSLEB128, AbstractMemReader::readULEB128"]}
{"id": "C08", "title": "Fixed-width integers decode as little-endian and advance the cursor exactly", "statement": "Reading an n-byte unsigned (signed) integer from a DWARF cursor gives the little-endian (two's complement) value of the next n bytes, sign-extended when signed, and moves the cursor n bytes; reading past the end raises an exception and the initial-length field distinguishes 32-bit, 64-bit and reserved values.", "quantifier": "all contents, cursor positions and widths 1..8", "why_tests_cant": "Sign bits and truncated inputs at each width.", "anchors": ["libpstack/dwarf.h: DWARFReader::getuint, getint, getu8, getu16, getu32, gets8", "dwarf_reader.cc: DWARFReader::getlength"]}
{"id": "C09", "title": "Unwind table lookup finds the covering entry", "statement": "Given frame description entries sorted by start address and not overlapping, looking up an address returns the entry whose range contains that address, and reports none exactly when no entry contains it.", "quantifier": "all tables of any length, all addresses", "why_tests_cant": "Binary search errors show only for particular table sizes and positions, including gaps and ends.", "anchors": ["dwarf_frame.cc: CFI::findFDE"]}
{"id": "C10", "title": "Lazy and eager unwind tables agree", "statement": "Looking up addresses through the sorted lookup table of .eh_frame_hdr, decoding entries on demand in whatever order the searches force, gives the same answer as decoding every entry up front; a decoded entry never changes afterwards.", "quantifier": "all tables, all histories of lookups", "why_tests_cant": "The set of already decoded entries depends on the lookup history.", "anchors": ["dwarf_frame.cc: CFI::ensureFDE, CFI::ensureFDEs, CFI::findFDE"]}
{"id": "C11", "title": "The frame section walk decodes each record once", "statement": "Walking a frame section made of any sequence of common and frame entries, with FDEs referring to CIEs before or after them, yields exactly the frame entries in the section, each associated with its own CIE, sorted by start address; a zero-length record ends the walk.", "quantifier": "all sequences of records in either flavour of section", "why_tests_cant": "Unbounded record sequences, forward references.", "anchors": ["dwarf_frame.cc: CFI::CFI, CFI::putFDEorCIE, CFI::decodeCIEFDEHdr, CFI::isCIE"]}
{"id": "C12", "title": "Encoded pointers in unwind data decode to the encoded address", "statement": "For every supported pointer encoding (signed and unsigned 2/4/8 byte, LEB128; absolute, pc-relative, data-relative), decoding an address that was encoded relative to its base returns that address modulo 2^64.", "quantifier": "all encodings, addresses, section addresses and offsets", "why_tests_cant": "Wrap-around and sign extension over 64-bit ranges.", "anchors": ["dwarf_frame.cc: CFI::decodeAddress, sizeForEncoding"]}
{"id": "C13", "title": "Register rules for an address are those of the unwind table row containing it", "statement": "Executing the call frame program of an entry for an address gives exactly the rules of the row, in the table the program denotes, with the greatest location not above the address: instructions positioned after the address have no effect and all those at or before it do.", "quantifier": "all call frame programs, all addresses", "why_tests_cant": "All programs and all cut points; off-by-one at a row boundary is invisible unless that exact address is tried.", "anchors": ["libpstack/dwarf.h: CIE::execInsns", "dwarf_frame.cc: FDE::execInsns, FDE::defaultFrame"]}
{"id": "C14", "title": "Remember and restore are exact inverses", "statement": "In a call frame program, whatever well-nested instructions run between a remember-state and its matching restore-state, the register and CFA rules after it are those before it; restore of one register gives the rule the common entry set up for it.", "quantifier": "all well-nested programs at any nesting depth", "why_tests_cant": "Unbounded nesting and instruction sequences.", "anchors": ["libpstack/dwarf.h: CIE::execInsns"]}
{"id": "C15", "title": "One unwind step restores the caller's registers", "statement": "Applying a frame's rules - over the general-purpose registers and the return address column, which is all x86_64 unwind tables speak of - yields a caller frame whose stack pointer is the CFA, whose registers with a memory, register, expression or same-value rule have the value that rule denotes over the callee's registers and memory, whose other registers are unchanged, and whose program counter is the recovered return address; no caller is reported when the return address is undefined, and a register saved in unreadable memory does not stop the unwinding.", "quantifier": "all rule sets, register contents and memories", "why_tests_cant": "Every combination of rules and registers.", "anchors": ["dwarfproc.cc: StackFrame::unwind", "process.cc: Process unwinding helpers"]}
{"id": "C16", "title": "Unwinding recovers the whole call chain", "statement": "If the stack of a thread is the result of any sequence of calls whose frames obey the registered unwind rules, then unwinding reports exactly those frames, innermost first, with the return address of every caller, and stops at the outermost (or after the limit of frames).", "quantifier": "all call depths and frame sizes", "why_tests_cant": "Unbounded call depth.", "anchors": ["process.cc: Lwp::unwind", "dwarfproc.cc: StackFrame::unwind"]}
{"id": "C17", "title": "Unwinding is bounded and starts at the machine registers", "statement": "Unwinding a thread always terminates with at most maxframes+1 frames, the first of which has the thread's own registers, whatever garbage the stack contains.", "quantifier": "all memories, register contents and limits", "why_tests_cant": "Corrupt stacks can have any shape, including cycles.", "anchors": ["process.cc: Lwp::unwind"]}
{"id": "C18", "title": "Source position of a caller frame uses the call, not the return address", "statement": "The address used for symbol and line lookup is the raw program counter for the innermost frame, for a signal trampoline and for the frame interrupted by a signal, and one less than the return address for every other frame; zero is left alone.", "quantifier": "all frame kinds and program counters", "why_tests_cant": "Every combination of mechanism and neighbouring frame.", "anchors": ["dwarfproc.cc: StackFrame::scopeIP"]}
{"id": "C19", "title": "Register file access", "statement": "Setting a DWARF register and reading it back returns the value set, leaves every other register that does not share storage unchanged, and a register number the architecture does not have raises an exception rather than touching anything.", "quantifier": "all register numbers and 64-bit values", "why_tests_cant": "Pairwise interference over the whole register file.", "anchors": ["libpstack/arch-x86_64.h: opReg, Elf::getReg, setReg"]}
{"id": "C20", "title": "DWARF expression evaluation computes the expression it encodes", "statement": "Evaluating the postfix code of any arithmetic expression over constants, registers, frame base and memory gives its 64-bit two's-complement value on top of an otherwise unchanged stack; malformed expressions (stack underflow, division by zero, oversized shift) are rejected rather than producing a value.", "quantifier": "all expression trees, register contents and memories", "why_tests_cant": "Unbounded expression trees; operand order and width errors show only for particular operands.", "anchors": ["dwarfproc.cc: ExpressionStack::eval"]}
{"id": "C21", "title": "Comparison operators follow the signed DWARF semantics", "statement": "The ordering operators of a location expression compare their operands as signed 64-bit integers, as DWARF requires.", "quantifier": "all pairs of 64-bit operands", "why_tests_cant": "2^128 operand pairs.", "anchors": ["dwarfproc.cc: ExpressionStack::eval (DW_OP_le, ge, lt, gt)"]}
{"id": "C22", "title": "Location list selection", "statement": "Evaluating a variable's location list at an address uses the expression of the first entry whose (base-adjusted) half-open range contains the address, and none if no entry does.", "quantifier": "all lists with any mix of entry kinds, all addresses", "why_tests_cant": "All list shapes and boundary addresses.", "anchors": ["dwarfproc.cc: ExpressionStack::eval(location list forms)"]}
{"id": "C23", "title": "DIE tree traversal reproduces the encoded tree", "statement": "Visiting the children of each debugging entry, recursively, gives exactly the tree that the unit's bytes encode, in order, with tags, attributes and values, whether or not sibling references are present, and whatever entries were visited before, in whatever way and with whatever iterators at work at the same time; following a reference gets hold of that entry. (Units in the forms the library knows; entries got before a purge are not used after it.)", "quantifier": "all units of versions 2-5, abbreviation tables, trees of any shape and size, and all histories of visits", "why_tests_cant": "Unbounded tree shapes; skipping over subtrees.", "anchors": ["dwarf_die.cc: DIE::firstChild, DIE::nextSibling, DIE::Raw, DIE::decode"]}
{"id": "C24", "title": "Parent lookup", "statement": "The parent reported for any entry is the entry that encloses it in the tree, independent of which entries have been visited before, of how the entry was reached, and of caches being purged in between. (Entries got before a purge are not used after it.)", "quantifier": "all trees, all histories of visits and purges", "why_tests_cant": "Depends on the caching history.", "anchors": ["dwarf_die.cc: DIE::getParentOffset", "dwarf_unit.cc: Unit::purge"]}
{"id": "C25", "title": "Attribute lookup", "statement": "Asking an entry for an attribute returns the value recorded for that attribute in the entry, or - when inheritance is allowed - in the entry it refers to by abstract origin or specification, and nothing if neither has it.", "quantifier": "all abbreviation tables, attribute orders and reference chains", "why_tests_cant": "All attribute sets and orders, unbounded chains.", "anchors": ["dwarf_die.cc: DIE::attribute", "dwarf_unit.cc: Unit::findAbbreviation, Abbreviation::Abbreviation"]}
{"id": "C26", "title": "Address ranges of an entry are half-open", "statement": "An entry is reported to contain an address if and only if the address lies in [low, high) or in one of its [begin, end) ranges.", "quantifier": "all range lists and addresses", "why_tests_cant": "Boundary addresses of every range.", "anchors": ["dwarf_die.cc: DIE::containsAddress, Ranges::Ranges"]}
{"id": "C27", "title": "Line table rows follow the line-number program", "statement": "Running a unit's line-number program produces exactly the rows the DWARF state machine defines for it, for every sequence of special, standard and extended opcodes.", "quantifier": "all programs and header parameters", "why_tests_cant": "Unbounded opcode sequences; wrap-around of line deltas.", "anchors": ["dwarf_lines.cc: LineInfo::build"]}
{"id": "C28", "title": "Source lookup picks the covering row", "statement": "The source position reported for an address is that of a row whose address range (up to the next row of its sequence) contains the address; none is reported for addresses outside every sequence.", "quantifier": "all line tables, all addresses", "why_tests_cant": "All tables and boundary addresses.", "anchors": ["dwarf_unit.cc: Unit::sourceFromAddr"]}
{"id": "C29", "title": "Segment lookup by address", "statement": "Looking up an address in an object returns the loadable segment whose memory range contains it, and none exactly when no segment does, whatever was looked up before.", "quantifier": "all sets of non-overlapping segments, all lookup histories", "why_tests_cant": "The last hit is cached, so the answer could depend on history.", "anchors": ["elf.cc: Object::getSegmentForAddress"]}
{"id": "C30", "title": "Symbol lookup by address returns a covering symbol", "statement": "A symbol returned for an address has a value/size range containing that address, and a symbol is returned whenever one of the eligible sized symbols covers it.", "quantifier": "all symbol tables and addresses", "why_tests_cant": "All table contents and address boundaries.", "anchors": ["elf.cc: Object::findSymbolByAddress, findSym"]}
{"id": "C31", "title": "Hash table symbol lookup is exact", "statement": "Looking up a name through the ELF hash table or the GNU hash table of a well-formed dynamic symbol table returns a symbol with exactly that name if the table has one and none otherwise.", "quantifier": "all symbol tables, bucket counts, bloom filters and names", "why_tests_cant": "Hash collisions and bloom false positives for arbitrary names.", "anchors": ["elf.cc: SymHash::findSymbol, GnuHash::findSymbol, elf_hash, gnu_hash"]}
{"id": "C32", "title": "Note iteration", "statement": "Iterating the notes of a segment yields exactly the notes encoded in it, in order, with their names, types and descriptions, for any name and description lengths.", "quantifier": "all sequences of notes", "why_tests_cant": "Alignment padding for all lengths.", "anchors": ["libpstack/elf.h: Notes, NoteIter", "elf.cc: NoteDesc"]}
{"id": "C33", "title": "Core memory reads merge core, files and zero fill", "statement": "A read of process memory from a core returns for every byte the byte saved in the core if the core has it, else the byte of the mapped object file if it has it, else zero if the address lies in a segment; a read is cut at the first address in no segment.", "quantifier": "all core and object layouts, all ranges spanning them", "why_tests_cant": "Reads spanning arbitrary mixes of regions.", "anchors": ["dead.cc: CoreReader::read, readFromHdr"]}
{"id": "C34", "title": "Stop and resume calls nest", "statement": "A thread of a live process is attached exactly while more stops than resumes have been requested for it, it is detached exactly once when the last stop is undone, and unmatched or failing calls never detach a thread twice.", "quantifier": "all interleavings of stop and resume calls for all threads, all ptrace outcomes", "why_tests_cant": "All call histories and failure points.", "anchors": ["live.cc: LiveProcess::stop, resume, stopProcess, resumeProcess"]}
{"id": "C35", "title": "Stopping a process leaves no running thread behind", "statement": "After stopping a whole process, every thread that exists when the last scan found nothing new has been stopped or had its failure recorded.", "quantifier": "all schedules of thread creation during the scan", "why_tests_cant": "Depends on the race between the scan and thread creation.", "anchors": ["live.cc: LiveProcess::stopProcess"]}
{"id": "C36", "title": "Address to object mapping", "statement": "Looking up a process address finds the mapped object one of whose segments contains it, for every address of the mapping including its first byte.", "quantifier": "all sets of mapped objects, all addresses", "why_tests_cant": "Boundary addresses.", "anchors": ["process.cc: Process::findSegment, addElfObject"]}
{"id": "C37", "title": "Debug heap accounting", "statement": "After any sequence of allocations, frees and reallocations, the reported current usage is the sum of sizes of live blocks, and the reported maximum is the largest value it ever had.", "quantifier": "all histories of heap calls", "why_tests_cant": "Histories of any length.", "anchors": ["heap.c: malloc, free, realloc bookkeeping"]}
{"id": "C38", "title": "Debug heap detects misuse", "statement": "Freeing a block that was already freed, or one whose guard words were overwritten, is reported, and a well-behaved program is never reported.", "quantifier": "all histories of heap calls and writes within blocks", "why_tests_cant": "Histories of any length.", "anchors": ["heap.c"]}
{"id": "C39", "title": "JSON output is well formed and faithful", "statement": "Printing any value gives text that a JSON parser reads back as the same value, for strings of any bytes the tool can meet.", "quantifier": "all value trees and strings", "why_tests_cant": "All strings including control characters and multi-byte text.", "anchors": ["libpstack/json.h: Escape, JObject, operator<<"]}
{"id": "C40", "title": "Symbol pattern matching is glob matching", "statement": "A pattern matches a symbol name exactly when the name can be obtained by replacing each * of the pattern by some string, every other character standing for itself.", "quantifier": "all patterns and names", "why_tests_cant": "Unbounded strings; backtracking.", "anchors": ["canal.cc: globmatchR, globmatch"]}
{"id": "C41", "title": "Address to symbol in heap scans", "statement": "In a heap scan an address is attributed to a symbol exactly when it lies in [start, end) of one of the matched symbols.", "quantifier": "all sets of symbols and addresses", "why_tests_cant": "Boundary addresses and abutting symbols.", "anchors": ["canal.cc: SymbolStore::find, SymbolStore::add"]}
{"id": "C42", "title": "Command line options are dispatched to their own handlers", "statement": "Every registered option, short or long-only, gets its own code, so parsing an option runs the handler it was registered with and no other.", "quantifier": "all sets of registered options", "why_tests_cant": "All registration sequences.", "anchors": ["flags.cc: Flags::add, Flags::done, Flags::parse"]}
{"id": "C43", "title": "Compressed block reads return the decompressed slice", "statement": "Reading any range of an LZMA- or zlib-compressed section returns the corresponding slice of its decompressed contents, whatever blocks are involved and whatever was read before.", "quantifier": "all block layouts, ranges and read histories", "why_tests_cant": "Reads spanning block boundaries; cached blocks.", "anchors": ["lzma.cc: LzmaReader::read", "inflate.cc: InflateReader"]}
{"id": "C44", "title": "Process map parsing", "statement": "Parsing a line of the process memory map yields the address range, permissions, offset, inode and path it encodes, for every address, permission and path.", "quantifier": "all map lines", "why_tests_cant": "All 64-bit addresses and all path spellings.", "anchors": ["live.cc: procMaps / addressSpace"]}
{"id": "C45", "title": "Python integer rendering", "statement": "The value rendered for a Python integer equals the sum of its digits weighted by powers of 2^30 with its sign, whenever it fits.", "quantifier": "all digit sequences", "why_tests_cant": "All lengths and values.", "anchors": ["python.tcc: LongPrinter"]}
{"id": "C46", "title": "A value in pieces is put together in order", "statement": "Evaluating a location made of a sequence of pieces held in registers gives the value whose least significant bytes are the first piece, followed by the second, and so on, each cut to its size.", "quantifier": "all sequences of pieces, sizes and register contents", "why_tests_cant": "Any number of pieces of any sizes.", "anchors": ["dwarfproc.cc: ExpressionStack::eval (DW_OP_piece)"]}
{"id": "C47", "title": "Evaluating any bytes as an expression terminates", "statement": "Evaluating an arbitrary byte range of a section as a location expression, valid or not and with entry values nested to any depth, always ends: no level of evaluation takes more operations, and no nesting is deeper, than there are bytes from its start to the end of the section.", "quantifier": "all byte sequences, start and end offsets", "why_tests_cant": "Corrupt debug information can contain any bytes.", "anchors": ["dwarfproc.cc: ExpressionStack::eval"]}
{"id": "C48", "title": "Remembered unwind rules are the rules", "statement": "The rules used for an address are the same whether or not they were computed before: any sequence of unwinds through any addresses of an object gives, for each, what running that entry's program afresh gives; a failing program is not remembered.", "quantifier": "all sequences of addresses and all unwind entries", "why_tests_cant": "Which addresses are hit earlier depends on the whole history of unwinds in the process.", "anchors": ["dwarfproc.cc: StackFrame::unwind", "libpstack/dwarf.h: Info::callFrameForAddr"]}
{"id": "C49", "title": "A failure further up the stack does not lose the frames below it", "statement": "When unwinding a thread fails at some frame, the frames recovered before it are reported for that thread.", "quantifier": "all register and memory contents", "why_tests_cant": "Depends on arbitrary garbage in registers and stack memory.", "anchors": ["process.cc: Lwp::unwind", "process.cc: Process::getStacks"]}
{"id": "C50", "title": "Unwinding without tables", "statement": "A frame for which no unwind rules can be used is followed, if its frame pointer points at a saved frame pointer and a return address in executable code, by exactly the caller these give; if it is the innermost (or interrupted) frame and its program counter is outside executable code, by the frame a call instruction left on the stack; a null frame pointer or program counter ends the stack.", "quantifier": "all registers, memory contents and mapped objects", "why_tests_cant": "Ranges over all register and memory contents of the target.", "anchors": ["process.cc: Lwp::unwind"]}
{"id": "C51", "title": "Scan counts", "statement": "After a memory scan, the number printed for a symbol is the number of words in the scanned memory whose value lies in the range of that symbol, and the symbols listed are those matching one of the patterns.", "quantifier": "all symbol tables, patterns and memory contents", "why_tests_cant": "The counts must be right for every memory image and every set of symbols; tests use a few fixed cores.", "anchors": ["canal.cc: search, SymbolStore, mainExcept"]}
{"id": "C52", "title": "Threads and registers of a core come from that thread's own notes", "statement": "For a core file, the list of threads is exactly the set of threads with a status record, in increasing order; the registers of a given kind returned for a thread are those recorded for it (general registers from its status record, other sets from the first note of that type between its status record and the next thread's), cut to the caller's buffer; nothing is returned for unknown threads or unrecorded sets.", "quantifier": "all core files with any number of threads, notes and note segments", "why_tests_cant": "Ranges over every arrangement of threads and notes; tests look at a few cores.", "anchors": ["dead.cc: CoreProcess::CoreProcess", "dead.cc: CoreProcess::getRegs", "dead.cc: CoreProcess::listLWPs"]}
{"id": "C53", "title": "Mapped files of a core", "statement": "For a core with a file-mapping note, iterating its mappings yields exactly those recorded, in order, each with its own address range, page offset and path.", "quantifier": "all file-mapping notes", "why_tests_cant": "Any number of mappings with paths of any length.", "anchors": ["dead.cc: FileEntries", "dead.cc: FileEntries::iterator"]}
{"id": "C54", "title": "Address space of a core", "statement": "The address space reported for a core has one range per loadable segment, in order, with its addresses, the extent saved in the core, its permissions, and the path and byte offset of the recorded file mapping that starts at the same address and is not longer than the segment, if there is one (no path otherwise).", "quantifier": "all sets of segments and recorded mappings", "why_tests_cant": "Every combination of segments and mappings.", "anchors": ["dead.cc: CoreProcess::addressSpace"]}
{"id": "C55", "title": "Values of attributes", "statement": "The string, number or address obtained from an attribute is the one the file records, whether it is in the entry itself, in a string section, or in a table of strings or addresses that the unit's root entry names.", "quantifier": "all values, forms, table positions and histories of earlier lookups", "why_tests_cant": "Every value, offset, index and order of lookups.", "anchors": ["dwarf_die.cc: DIE::Attribute::operator std::string, operator uintmax_t, operator intmax_t", "dwarf_unit.cc: Unit::strx, Unit::addrx, Unit::rnglistx"]}
{"id": "C56", "title": "Units and entries by offset", "statement": "Running over the units of a file gives each unit once, in order; and the entry at an offset is found in the unit that has it, whatever units and entries were looked at before.", "quantifier": "all sections, offsets of entries and histories of earlier lookups", "why_tests_cant": "The search starts from whatever unit earlier lookups left behind.", "anchors": ["dwarf_info.cc: Info::getUnit, Info::offsetToDIE, Info::getUnits", "libpstack/dwarf.h: Units::iterator"]}
{"id": "C57", "title": "The unit of an address", "statement": "Looking up an address finds the unit whose addresses (in .debug_aranges, or in the root entry of the unit as a low and a high address or as a list of ranges) contain it, and no other; the answer does not depend on earlier lookups.", "quantifier": "all sections, addresses and histories of earlier lookups", "why_tests_cant": "Every layout of ranges and every order in which addresses are looked up; the table is filled in two steps.", "anchors": ["dwarf_info.cc: Info::lookupUnit, Info::decodeARangeSet"]}
{"id": "C58", "title": "The function of an address", "statement": "The function found for an address is the first one in its unit that has the address among its own (by a low and a high address, or by a list of ranges) and is not below an entry that does not have it; nothing is found when there is no such function. Earlier lookups make no difference.", "quantifier": "all sections, trees of entries, addresses and histories of earlier lookups", "why_tests_cant": "Every tree of entries, of any depth and width, with any ranges, and every order of lookups.", "anchors": ["dwarf_die.cc: DIE::findEntryForAddr, DIE::containsAddress", "dwarfproc.cc: CodeLocation::die"]}
{"id": "C59", "title": "Inlined functions of an address", "statement": "For an address in a function the inlined functions that are shown are those that have the address, the outermost first, each below the one before.", "quantifier": "all sections, trees of entries, addresses and histories of earlier lookups", "why_tests_cant": "Any depth of nesting, any position among the entries, and any order of lookups.", "anchors": ["process.cc: PrintableFrame::PrintableFrame", "dwarf_die.cc: DIE::findEntryForAddr"]}
{"id": "C60", "title": "Debug heap blocks", "statement": "The blocks of a program are apart from each other, in memory of the real allocator, of the size asked for and aligned as asked for; their contents are changed by nothing but the program's writes to them, whatever other threads do; calloc returns zeros and realloc keeps the contents (for sizes that fit, when there is memory).", "quantifier": "all histories of heap calls and writes, all schedules of threads, all behaviours of the real allocator", "why_tests_cant": "Histories of any length, any schedule, any addresses from the real allocator.", "anchors": ["heap.c: malloc, aligned_alloc, calloc, realloc, free"]}
{"id": "C61", "title": "Python frame line numbers", "statement": "The line printed for a Python frame is the line the code object's line table assigns to the instruction the frame is at, for every table and instruction offset.", "quantifier": "all line tables (as CPython writes them, with any address and line steps) and all instruction offsets", "why_tests_cant": "Steps of more than 255 bytes or 127 lines are split into several entries; negative steps.", "anchors": ["python.tcc: getLine"]}
{"id": "C62", "title": "Python dictionaries are shown completely", "statement": "Every key and value stored in a Python dictionary is shown exactly once, and nothing else is, for every size and fill of its table.", "quantifier": "all hash tables and index widths", "why_tests_cant": "Index width changes with the size of the table; every place of the table must be tried.", "anchors": ["python3.cc: DictPrinter::print, readIndex", "python2.cc: DictPrinter::print"]}
{"id": "C63", "title": "Printing Python objects ends and expands each container once", "statement": "Whatever the objects of a process refer to - cycles, damaged or unreadable memory included - printing a Python object ends, and each container is expanded at most once. Objects that are not shared are rendered completely.", "quantifier": "all object graphs", "why_tests_cant": "Unbounded graphs, cycles, failing reads at any place.", "anchors": ["python.tcc: PythonPrinter::print, ListPrinter, TuplePrinter, FramePrinter"]}
{"id": "C64", "title": "Python threads are listed once", "statement": "The threads of a Python interpreter are listed in order, each once; lists that are cyclic are listed until they repeat.", "quantifier": "all thread lists", "why_tests_cant": "Cyclic and very long lists.", "anchors": ["python.tcc: PythonPrinter::printInterp, printInterpreters"]}
{"id": "C65", "title": "Python version from the file name", "statement": "The version of Python reported is the one in the name of the library or program.", "quantifier": "all file names", "why_tests_cant": "All names and versions.", "anchors": ["python.cc: getPythonVersionFromFilename"]}
{"id": "C66", "title": "Python backtraces are complete", "statement": "For every interpreter of a process, every thread of it and every frame of its stack, from the innermost to the outermost, the function, the file and the line are written, in order, and nothing else is.", "quantifier": "all lists of interpreters, threads and frames, of any length", "why_tests_cant": "Unbounded nested lists in the memory of another process.", "anchors": ["python.tcc: printInterpreters, printInterp, printThread, FramePrinter::print"]}
{"id": "C67", "title": "Python strings are shown as they are", "statement": "A Python string is shown with all of its characters.", "quantifier": "all strings, in all representations CPython uses", "why_tests_cant": "All strings; the representation depends on the widest character.", "anchors": ["python3.cc: readString<3>", "python2.cc: readString<2>"]}
{"id": "C68", "title": "Arguments of Python calls", "statement": "When arguments are asked for, the line of every Python frame shows all arguments of the call with their values: positional ones, the members of *args, keyword-only ones with their names, and **kwargs.", "quantifier": "all signatures and calls, all values", "why_tests_cant": "Unbounded numbers of arguments of every kind, with values that are arbitrary object graphs in the memory of another process.", "anchors": ["python.tcc: FramePrinter::print"]}
{"id": "C69", "title": "Variables of Python frames", "statement": "When locals are asked for, all variables of a Python frame are written below it, in order, each with its name and value: locals, cells and free variables, and its dictionary of locals.", "quantifier": "all frames, all numbers of variables of each kind, all values", "why_tests_cant": "As C68.", "anchors": ["python.tcc: FramePrinter::print, PythonPrinter::printTupleVars"]}
{"id": "C70", "title": "Images are looked for in the directories given", "statement": "A program, library or debug file is looked for in all directories that are known for it, those given last first; the first ELF image (or the interpreter of a script) is used. A build id is looked for as ab/cdef in each directory for build ids, then with debuginfod.", "quantifier": "all files of the machine, all lists of directories, names and build ids", "why_tests_cant": "The set of directories and what is in each is unbounded; a test has only the files of one machine.", "anchors": ["context.cc: Context::getImageInPath, Context::getImageImpl, Context::findImage, Context::findDebugImage", "elf.cc: Elf::Object::getDebug"]}
{"id": "C71", "title": "Caches of images do not change answers", "statement": "What has been looked up or flushed before does not change the file a lookup finds; an image stays the same object, with the same debug information, until it is flushed, and is not returned after that.", "quantifier": "all histories of lookups by name and build id, flushes, and requests for debug information", "why_tests_cant": "All histories: a wrong cache entry only matters for later lookups.", "anchors": ["context.cc: Context::getImageIfLoaded, Context::getImageInPath, Context::getImageImpl, Context::flush, Context::findDwarf"]}
{"id": "C72", "title": "Links are resolved", "statement": "The name of a program that is a symbolic link is resolved through all links to the file; if that is impossible, the name stays as it is; and this ends.", "quantifier": "all chains of links, absolute and relative", "why_tests_cant": "Chains of any length and shape.", "anchors": ["context.cc: Context::linkResolve"]}
{"id": "C73", "title": "--no-local-files opens no local files", "statement": "With --no-local-files no lookup of an image opens a file of this machine.", "quantifier": "all histories of lookups, all files", "why_tests_cant": "All histories and options.", "anchors": ["context.cc: Context::findImage, Context::getImageImpl, Context::findDebugImage", "elf.cc: Elf::Object::getDebug"]}
{"id": "C74", "title": "Opening a process finds what is loaded in it", "statement": "When a process or core is opened, the executable, every named library of the dynamic linker's link map and the vdso are recorded, each at the address it is loaded at, and nothing else; a static executable is recorded as it is linked; in a core without a readable link map the files that were mapped take its place.", "quantifier": "all processes: auxiliary vectors, program headers, dynamic sections, link maps, base addresses, contents of memory", "why_tests_cant": "All memory contents and lists of any length; a test sees a few real processes.", "anchors": ["process.cc: Process::load, processAUXV, extractDtDebugFromDynamicSegment, findRDebugAddr, loadSharedObjects, addElfObject", "dead.cc: CoreProcess::loadSharedObjectsFromFileNote"]}
{"id": "C75", "title": "The executable of a process", "statement": "The executable a process is taken to run is the one given; else the image with the build id found in the notes of the program in memory; else the one the auxiliary vector names; else the one the process itself refers to.", "quantifier": "all processes, notes, and results of lookups of images", "why_tests_cant": "All combinations of notes and lookups that fail.", "anchors": ["process.cc: Process::processAUXV", "libpstack/proc.h: Process::executableImage"]}
{"id": "C76", "title": "Qualified names of functions", "statement": "A function is shown with its own name, qualified with the names of the namespaces, classes, structures and unions it is declared in, outermost first and separated by ::, wherever its entry is, however many specification and abstract origin references lead to its declaration, and whatever was looked at before.", "quantifier": "all debugging sections with well-formed units, all functions in them, all nestings and chains of references, all histories of use", "why_tests_cant": "Trees, chains of references across units and histories of cached and dropped entries are unbounded.", "anchors": ["process.cc: buildDIEName", "dwarf_die.cc: DIE::name, DIE::attribute, DIE::getParentOffset"]}
{"id": "C77", "title": "Where in a function a frame is", "statement": "A frame shows the qualified name of its function, the distance of its address from the start of the function (its low address, or its first range, or else its ELF symbol), and the inlined functions the address is in.", "quantifier": "all debugging sections with well-formed units, all functions and addresses, all ELF symbols, all histories of use", "why_tests_cant": "All forms of addresses and ranges, all trees of inlined functions, all histories.", "anchors": ["process.cc: PrintableFrame::PrintableFrame", "dwarf_die.cc: DIE::getRanges, DIE::findEntryForAddr"]}
{"id": "C78", "title": "Values of arguments", "statement": "An object (in memory or in a register) is shown as its type says: numbers in decimal with their sign, truth values, characters, addresses; pointers with the object they point to, and so on as far as that goes; pointers to char with the string; of other types the name. Typedefs and qualifiers make no difference.", "quantifier": "all debugging sections with well-formed units, all types in them, all contents of memory and registers, all histories of use", "why_tests_cant": "Types and chains of pointers are unbounded, as are the contents of memory and what was looked at before.", "anchors": ["process.cc: RemoteValue, operator << (RemoteValue), removeCV", "reader.h: Reader::readString"]}
{"id": "C79", "title": "Arguments of a frame", "statement": "With a frame the parameters of its function are shown in the order they are declared, separated by commas, each with its name and its value: the object at the place its location (an expression, or what a list of locations has for the instruction) gives, or its constant value; without a value if none is known.", "quantifier": "all functions of all well-formed units, all frames (registers, memory, instruction), all expressions and lists of locations, all histories of use", "why_tests_cant": "All lists of parameters, all location expressions, all states of a process.", "anchors": ["process.cc: operator << (ArgPrint)", "dwarfproc.cc: ExpressionStack::eval"]}
{"id": "C80", "title": "Text of a frame", "statement": "A frame of a stack is shown in a line for each function inlined where the frame is, the innermost first, and a line for the function itself. Each line has the number of the frame, the function's line the program counter in 16 digits, the qualified name (or the symbol, with marks, or \"<unknown>\"), the arguments, the offset, and the object; each has the place in the source: for the innermost that of the address, for every other one where it calls the one before.", "quantifier": "all well-formed debugging sections and line tables, all frames in them or outside of any object, all depths of inlining, all options, all histories of use", "why_tests_cant": "All trees of functions and inlined functions, all addresses, and whatever was looked at before.", "anchors": ["process.cc: Process::dumpFrameText, PrintableFrame", "dwarf_unit.cc: Unit::getLines", "dwarf_info.cc: Info::linesAt"]}
{"id": "C81", "title": "Text of a stack", "statement": "The stack of a thread is shown as a heading (thread id and type if known, lwp, name if known) and the text of its frames in order, innermost first, numbered from 0. What one frame makes the program remember changes nothing in the text of the others.", "quantifier": "all stacks of any length, over any number of objects, all options, all histories of use of each object", "why_tests_cant": "Stacks of any length; frames share what is remembered of the objects.", "anchors": ["process.cc: Process::dumpStackText"]}
{"id": "C82", "title": "Macros of a unit", "statement": "Visiting the macros of a unit tells the visitor, in the order of the list in .debug_macro its root refers to, of every macro defined or undefined (line and text, whether the text is in the list, in the string section by position, or by number) and of every file entered (line, directory, file) or left, with the contents of imported lists in the place of the import, until the visitor says to stop; the result is whether it did not. A unit whose root refers to no list has no macros.", "quantifier": "all lists with any number of entries, imports of any depth, all visitors, all units, all histories of use", "why_tests_cant": "All lists, nested to any depth, all visitors, and whatever was looked at before.", "anchors": ["dwarf_macros.cc: Macros::readD5, Macros::visit5", "dwarf_unit.cc: Unit::getMacros"]}
{"id": "C83", "title": "Macros in the older section", "statement": "Visiting the macros of a unit that refers to a list in .debug_macinfo tells the visitor of every definition, and of every file entered or left as named by the line table of the unit, in the order of the list, until the visitor says to stop; the result is whether it did not.", "quantifier": "all lists with any number of entries, all visitors, all units, all histories of use", "why_tests_cant": "All lists, all visitors, and whatever was looked at before.", "anchors": ["dwarf_macros.cc: Macros::readD4, Macros::visit4", "dwarf_unit.cc: Unit::getMacros"]}
{"id": "C84", "title": "Public names", "statement": "The public names of an object are those of the sets in its .debug_pubnames, set by set in the order of the section, each with the offset and size of the unit it is about and its names with the offsets of their entries; the answer is the same every time it is asked for. Without the section there are none.", "quantifier": "all sections with any number of sets and names, all numbers of calls", "why_tests_cant": "All sections with any number of sets of any size, and any number of calls.", "anchors": ["dwarf_pubnames.cc: PubnameUnit::PubnameUnit, Pubname::Pubname", "dwarf_info.cc: Info::pubnames"]}
{"id": "C85", "title": "Sections by name", "statement": "Asking an object for a section by name and type gives the section of that name and type in its file; failing that its compressed form (.zdebug_ for .debug_), failing that the one of a split object (.dwo); if there is none, an empty section, also for objects without section headers. The number of sections and of the one with their names may be in section 0. With a separate object of debug information, sections that are missing or empty in the object are taken from there. The section linked to a section is the one of that number.", "quantifier": "all files with any number of sections and any names, all names and types asked for, all histories of lookups", "why_tests_cant": "All files and all names, and whatever was looked up before.", "anchors": ["elf.cc: Object::sectionHeaders, Object::getSection, Object::getDebugSection, Object::getLinkedSection, Section::Section"]}
{"id": "C86", "title": "Symbols of a process by name", "statement": "The address of a symbol in a process is that of the first object, in the order of load addresses, among those asked for, that defines the symbol: as a dynamic symbol, or else, if this is asked for, in its symbol table. If none does, there is an exception. This does not depend on the symbols looked up before. A lookup for the thread library is in the objects whose file has the name given and in libc.so.6, or in all.", "quantifier": "all processes with any number of objects and symbols, all names, all histories of lookups", "why_tests_cant": "All symbol tables, sets of objects and histories.", "anchors": ["process.cc: Process::resolveSymbol, Process::resolveSymbolDetail", "elf.cc: Object::findDebugSymbol, Object::findDynamicSymbol", "proc_service.cc: ps_pglobal_lookup"]}
{"id": "C87", "title": "The arguments of the command", "statement": "Each argument that is the decimal number of a process stands for this process, another is a file: an ELF core is shown, and any other ELF object is the executable assumed for the arguments that follow, until the next. The stacks shown are the native ones, with -p those of Python, with -A both. An argument that fails is reported and does not keep those that follow from being shown; the exit status is 70 if any failed, and otherwise 0. Without arguments it is 64.", "quantifier": "all lists of arguments, all sets of processes and files and all failures of theirs", "why_tests_cant": "All lists of arguments and all ways in which opening or tracing each of them can fail.", "anchors": ["pstack.cc: emain, doStack, main", "process.cc: Process::load"]}
{"id": "C88", "title": "Running a command until it dies", "statement": "A command given with -s is run with the words of it as program and arguments. Whenever it stops for a signal that it blocks, catches or ignores it is continued with this signal; when it stops for another, its stacks are shown once and it is killed. If it ends by itself nothing is shown.", "quantifier": "all commands, all sequences of signals, all masks of signals and all other content of the status file", "why_tests_cant": "All sequences of stops and all masks.", "anchors": ["pstack.cc: startChild"]}
{"id": "C89", "title": "Stacks of a process", "statement": "The stacks of a process are those of its threads, one for each, in the order of their ids: the frames are what unwinding gives from the registers recorded for this thread, with the name the kernel has for it and what the thread library says of it. A thread is left out only if its registers cannot be read or unwinding throws, and this does not affect the others. For a core with the registers and memory of call chains, the stacks are exactly these.", "quantifier": "all processes, lists of threads, register contents, thread library data, cores and names", "why_tests_cant": "All register contents and all combinations of threads that cannot be read with those that can.", "anchors": ["process.cc: Process::getStacks, getCoreRegs", "proc.h: Process::getRegset, Lwp", "live.cc: LiveProcess::getTaskName"]}
{"id": "C90", "title": "Report on a process", "statement": "What is shown of a process is a line that says what it is and, if a core records the signal that ended it, the number and code of the signal, what else is recorded and why the signal was sent; then the stacks of all its threads in the order of their ids, each with a heading, all its frames, and an empty line. What is shown does not depend on what was looked up before, nor on the stacks shown before.", "quantifier": "all processes, signal records, stacks, debug information and earlier lookups", "why_tests_cant": "All histories of lookups (caches) and all combinations of frames.", "anchors": ["pstack.cc: pstack", "process.cc: operator << (std::ostream &, const SigInfo &), Process::dumpStackText", "dead.cc: CoreProcess::getSignalInfo"]}
{"id": "C91", "title": "Source line of an address", "statement": "The source line found for an address is the file and line of the first row that covers it in the line table of the unit that has the address, and nothing if no unit has it, the unit says it does not, it has no line table, or no row covers it; and a stack, given only the addresses of its frames, is shown with the function, the inlined functions and the line of each address. It does not depend on what was looked up before.", "quantifier": "all addresses, sets of units, line tables, stacks and earlier lookups", "why_tests_cant": "All addresses and debug information, and all histories of lookups (caches of units, ranges and entries).", "anchors": ["dwarf_info.cc: Info::sourceFromAddr, Info::lookupUnit, Info::linesAt", "dwarf_unit.cc: Unit::sourceFromAddr, Unit::getLines", "dwarfproc.cc: CodeLocation::die, CodeLocation::source", "process.cc: Process::dumpFrameText"]}
{"id": "C92", "title": "Report on a debug heap", "statement": "For a process run with the debugging allocator, hdmp shows the number of calls, the stack of the failure, and each block of the lists that are asked for exactly once and in order, with the address that was returned for it, its size, whether the words before and after it are damaged, and one line for each frame of its stack, with the symbol and line of the call. If a list is damaged, the blocks before the damage are shown.", "quantifier": "all memories, lists of any length, stacks and options", "why_tests_cant": "All lengths of lists and stacks and all contents of memory, including damaged lists.", "anchors": ["hdmp.cc: printStack, printBlocks, dumpHeap, main", "heap.h: memdesc, guard, hdbg_info"]}
{"id": "C93", "title": "Versions of symbols", "statement": "For every ELF object, after any calls: the version with an index is the name that .gnu.version_r or .gnu.version_d gives that index, whatever bit 15 of the index is; indices 0 and 1 have none, and any other index the file does not mention is an error. The index of the nth symbol is the nth entry of .gnu.version. What is needed of each file, and what version each version follows, is as those sections say.", "quantifier": "all objects with any number of needed files, versions, definitions, entries of .dynamic, and all histories of calls", "why_tests_cant": "All chains of records, in any order and at any offsets, and all histories.", "anchors": ["elf.cc: Object::dynamic, Object::symbolVersions, Object::symbolVersion, Object::versionIdxForSymbol", "libpstack/elf.h: SymbolVersioning, VersionIdx"]}
{"id": "C94", "title": "Name of a type", "statement": "For every entry of .debug_info that is a type, after any calls, typeName gives the type's own name if it has one; for pointer, reference, const and volatile types without a name, the name of the type they are made of followed by ' *', '&', ' const' or ' volatile'; for a function type, the name of what it returns and then those of its parameters in parentheses, separated by ', '; and 'void' for no type.", "quantifier": "all well-formed .debug_info sections, all types of any depth with any number of parameters, all histories of calls", "why_tests_cant": "Types nest to any depth, parameters are types themselves, and what is cached depends on the history of calls.", "anchors": ["dwarf_die.cc: typeName", "libpstack/dwarf.h: typeName"]}
{"id": "C95", "title": "Stack use of functions", "statement": "For every object and every list of names, the program stackusers writes one line for each symbol that has a size, is in an executable segment and is one of those named (all if none are), in the order of the symbol table. The line has the largest offset (at least 0) from the CFA, or of the CFA from its register, that is in force anywhere in the function's call frame program, the distance of the program's last row from the start of the function plus one, the symbol's size and its name.", "quantifier": "all symbol tables, all segments, all call frame programs, all lists of names, all earlier lookups of segments", "why_tests_cant": "Programs of any length, with any instructions, in any nesting of remembered states.", "anchors": ["stackusers.cc: processImage", "libpstack/dwarf.h: CIE::execInsns", "dwarfproc.cc: CodeLocation::fde"]}
{"id": "C96", "title": "Search for a string in memory", "statement": "For every segment of memory and every string that is not empty, the search for the string (option -S of canal) ends, and writes the address of each place of the segment where the string is, once and in order.", "quantifier": "all segments of any length, all strings, all contents of memory", "why_tests_cant": "The string may be at any place of a segment of any size, also across two chunks that are read; whether the search ends is not settled by any run that has not ended.", "anchors": ["canal.cc: findString"]}
{"id": "C97", "title": "References to addresses in memory", "statement": "For all segments of a process that can be read and are not memory-mapped input or output, and for every set of addresses and ranges given by options -f and -e, canal writes the address of each aligned word (of 4 or 8 bytes) whose value is asked for, in the order of memory, once for each address or range that has it, and nothing else.", "quantifier": "all memory contents, all lists of segments (also ones that can not be read), all lists of addresses and ranges, both word sizes", "why_tests_cant": "Memory is read in chunks; a word may be anywhere in segments of any size.", "anchors": ["canal.cc: search", "canal.cc: mainExcept", "libpstack/reader.h: ReaderArray"]}
{"id": "C98", "title": "Report of references to symbols", "statement": "For all memory, patterns and symbols, canal writes one line for each symbol that matches a pattern and that some word of memory refers to, with the number of these words, the symbol's name and its object, by falling number. A word refers to a symbol if it is an address in it, or exactly the given distance from its start if option -o gives one. With -s, a line for each such word is written before that, in the order of memory, with the address of the word, the symbol and the distance.", "quantifier": "all memory contents, all lists of segments, all patterns, all symbols that do not touch, all ways to sort", "why_tests_cant": "Any number of words and symbols; the order of equal counts is left to the library.", "anchors": ["canal.cc: search", "canal.cc: SymbolStore", "canal.cc: mainExcept"]}
{"id": "C99", "title": "Dump of call frame programs", "statement": "For every call frame program in a section, whatever is before and after it, the JSON that the dump writes for it is a valid text for an array that has one object for each instruction, in order, with the instruction's DWARF name and its operands.", "quantifier": "all programs of any length, all operands, all contents of the section around the program", "why_tests_cant": "Programs have any length, and each instruction has its own operand encodings.", "anchors": ["dump.cc: dumpCFAInsn", "dump.cc: operator << (JSON<DumpCFAInsns>)", "libpstack/dwarf/cfainsns.h"]}
{"id": "C100", "title": "Dump of symbols and relocations", "statement": "For every section of symbols, with the section of strings it is linked to, the JSON that the dump writes is a valid text for an array with one object for each symbol, in order, with its name, value, size, section and flags and with the ELF names of its binding and its type. For every section of relocations with addends it is one for an array with one object for each relocation, in order, with its place, symbol, type and addend.", "quantifier": "all tables of symbols and relocations of any length, all names, all readers the sections may be read through", "why_tests_cant": "Tables have any length and any contents, and are read in chunks.", "anchors": ["dump.cc: operator << (JSON<Elf::Sym, Elf::Section>)", "dump.cc: operator << (JSON<Elf::Rela>)", "dump.cc: operator << (JSON<std::unique_ptr<Elf::Section>>)"]}
{"id": "C101", "title": "Stacks as JSON", "statement": "For every set of threads and frames, whatever is known of each frame, `pstack --json` writes a valid JSON text for an array with one object for each thread, in order of id, with what the thread library says of it, its id, its name or null, and one object for each of its frames, in order, with the address, how far it is into its function, whether it is a signal trampoline, the name of the function, the load address of the object, the symbol or null, and the source lines.", "quantifier": "all lists of threads and stacks of any depth, all names, all frames with or without an object, a function, a symbol or lines, with and without the names of functions", "why_tests_cant": "Stacks have any depth, and names and addresses any contents.", "anchors": ["pstack.cc: pstack", "process.cc: operator << (JSON<Procman::Lwp, Procman::Process *>)", "process.cc: operator << (JSON<Procman::StackFrame, Procman::Process *>)", "process.cc: PrintableFrame::PrintableFrame"]}
{"id": "C102", "title": "Dump of an ELF object", "statement": "For every ELF object the JSON that the dump writes is a valid text for an object with the ELF names of its type and brand, its entry point, its interpreter if it has one, and for each type of segment a member with the name of the type and the segments of it in order, each with its offset, addresses, sizes, type, flags and alignment.", "quantifier": "all values of the fields of the header, all sets of segments, any order of the flags, any sections, notes and versions", "why_tests_cant": "Fields of the header and the types and number of segments are arbitrary, and the order of the flags depends on where strings are in memory.", "anchors": ["dump.cc: operator<< (JSON<Elf::Object>)", "dump.cc: programHeaderName", "dump.cc: operator<< (JSON<Elf::Phdr, const Elf::Object *>)"]}
