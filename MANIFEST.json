{
 "claims": [
  {
   "property": "C01",
   "status": "proved",
   "theorems": [
    "Pstack.Props.C01_cache_transparent",
    "Pstack.Props.C01_cache_transparent_file",
    "Pstack.Props.C01_needs_aligned_holes"
   ],
   "note": "Assumes 256-byte-aligned hole starts (C01_needs_aligned_holes shows why); 64-bit wrap of offsets not modelled."
  },
  {
   "property": "C02",
   "status": "proved",
   "theorems": [
    "Pstack.Props.C02_cache_bounded",
    "Pstack.Props.C02_cache_recency",
    "Pstack.Props.C02_cache_hit"
   ],
   "note": ""
  },
  {
   "property": "C03",
   "status": "partial",
   "theorems": [
    "Pstack.Props.C03_flush_fresh_partial",
    "Pstack.Props.C03_not_flush_fresh_strings"
   ],
   "note": "False for strings already read (C03_not_flush_fresh_strings): the string cache survives flush. Reads and first-time strings are proved."
  },
  {
   "property": "C04",
   "status": "partial",
   "theorems": [
    "Pstack.Props.C04_window_read_partial",
    "Pstack.Props.C04_window_slice",
    "Pstack.Props.C04_beyond_window",
    "Pstack.Props.C04_beyond_memory",
    "Pstack.Props.C04_view_compose_partial",
    "Pstack.Props.C04_not_window_read",
    "Pstack.Props.C04_not_view_clamped",
    "Pstack.Props.C04_not_default_view_of_memory",
    "Pstack.Props.C04_object_read"
   ],
   "note": "Proved for requests that do not wrap 2^64 and views that stay inside their reader; the three excluded cases are refuted with witnesses."
  },
  {
   "property": "C05",
   "status": "proved",
   "theorems": [
    "Pstack.Props.C05_array_iterates_all",
    "Pstack.Props.C05_array_random_access"
   ],
   "note": ""
  },
  {
   "property": "C06",
   "status": "partial",
   "theorems": [
    "Pstack.Props.C06_string_to_nul_partial",
    "Pstack.Props.C06_string_to_end",
    "Pstack.Props.C06_string_at_zero",
    "Pstack.Props.C06_not_cut_at_window",
    "Pstack.Props.C06_not_cut_in_memory"
   ],
   "note": "Proved for every string that is terminated within the reader's data, on every nesting of windows over files and memory, and for unterminated strings in files. Missing because false of the code: an unterminated string on a window or in memory is not cut at the end of the reader's data (C06_not_cut_at_window, C06_not_cut_in_memory)."
  },
  {
   "property": "C07",
   "status": "proved",
   "theorems": [
    "Pstack.Props.C07_uleb_roundtrip",
    "Pstack.Props.C07_sleb_roundtrip",
    "Pstack.Props.C07_uleb_any",
    "Pstack.Props.C07_sleb_any",
    "Pstack.Props.C07_reader_uleb",
    "Pstack.Props.C07_reader_sleb",
    "Pstack.Props.C07_leb_overlong"
   ],
   "note": "Encodings longer than ten bytes are undefined behaviour (C07_leb_overlong)."
  },
  {
   "property": "C08",
   "status": "proved",
   "theorems": [
    "Pstack.Props.C08_getuint",
    "Pstack.Props.C08_getint",
    "Pstack.Props.C08_past_end",
    "Pstack.Props.C08_getu8_16_32",
    "Pstack.Props.C08_initial_length"
   ],
   "note": ""
  },
  {
   "property": "C09",
   "status": "proved",
   "theorems": [
    "Pstack.Props.C09_lookup",
    "Pstack.Props.C09_sound"
   ],
   "note": "Eager (sorted) table; the lazy table is C10."
  },
  {
   "property": "C10",
   "status": "proved",
   "theorems": [
    "Pstack.Props.C10_lazy_eq_eager",
    "Pstack.Props.C10_stable",
    "Pstack.Props.C10_getFDEs"
   ],
   "note": "For well-formed .eh_frame + .eh_frame_hdr with datarel sdata4 table (the encoding the linker emits)."
  },
  {
   "property": "C11",
   "status": "proved",
   "theorems": [
    "Pstack.Props.C11_walk",
    "Pstack.Props.C11_cycle_diverges"
   ],
   "note": "For sections of 32-bit-length records whose FDEs name a CIE of the section; a FDE naming itself as CIE makes the code recurse forever (C11_cycle_diverges)."
  },
  {
   "property": "C12",
   "status": "partial",
   "theorems": [
    "Pstack.Props.C12_decode_partial",
    "Pstack.Props.C12_absptr_wrong"
   ],
   "note": "All encodings except DW_EH_PE_absptr, whose full-width format the code decodes wrongly (C12_absptr_wrong)."
  },
  {
   "property": "C13",
   "status": "partial",
   "theorems": [
    "Pstack.Props.C13_row_partial",
    "Pstack.Props.C13_section_partial",
    "Pstack.Props.C13_advance_wraps"
   ],
   "note": "Programs that have a table (finalRow/rows defined), within the instruction set the code supports (DW_CFA_val_offset is rejected) and whose advance products fit 32 bits (C13_advance_wraps shows the wrap)."
  },
  {
   "property": "C14",
   "status": "proved",
   "theorems": [
    "Pstack.Props.C14_remember_restore",
    "Pstack.Props.C14_restore_register",
    "Pstack.Props.C14_unmatched_restore_ub"
   ],
   "note": ""
  },
  {
   "property": "C15",
   "status": "proved",
   "theorems": [
    "Pstack.Props.C15_caller",
    "Pstack.Props.C15_no_caller",
    "Pstack.Props.C15_unreadable_kept",
    "Pstack.Props.C15_saved"
   ],
   "note": "Rows over registers 0-16 (Row.General); values by the independent rule denotation of Spec/Unwind."
  },
  {
   "property": "C16",
   "status": "proved",
   "theorems": [
    "Pstack.Props.C16_calls",
    "Pstack.Props.C16_chain",
    "Pstack.Props.C16_chain_cut"
   ],
   "note": "C16_calls: any history of calls, returns and other work in frame-pointer code; C16_chain: any rules at all."
  },
  {
   "property": "C17",
   "status": "proved",
   "theorems": [
    "Pstack.Props.C17_bounded",
    "Pstack.Props.C17_only_first"
   ],
   "note": "Termination is by the loop being structurally bounded; UB in rule expressions is an outcome."
  },
  {
   "property": "C18",
   "status": "proved",
   "theorems": [
    "Pstack.Props.C18_exact",
    "Pstack.Props.C18_call",
    "Pstack.Props.C18_stack"
   ],
   "note": "C18_stack relates consecutive frames of a whole stack."
  },
  {
   "property": "C19",
   "status": "partial",
   "theorems": [
    "Pstack.Props.C19_set_get_partial",
    "Pstack.Props.C19_set_typed",
    "Pstack.Props.C19_set_others_partial",
    "Pstack.Props.C19_bad_number",
    "Pstack.Props.C19_not_set_get_unkept",
    "Pstack.Props.C19_mm_in_xmm",
    "Pstack.Props.C19_numbering"
   ],
   "note": "Write/read-back for every kept register; every write succeeds exactly on a value of the register's type; no interference but mm/xmm. Fails: unkept registers (60,61,67-154) silently drop writes; mm registers are stored in xmm instead of st."
  },
  {
   "property": "C20",
   "status": "partial",
   "theorems": [
    "Pstack.Props.C20_expression_partial",
    "Pstack.Props.C20_register_location",
    "Pstack.Props.C20_not_stack_value",
    "Pstack.Props.C20_not_underflow_empty",
    "Pstack.Props.C20_not_underflow_operator",
    "Pstack.Props.C20_not_division_by_zero",
    "Pstack.Props.C20_not_oversized_shift",
    "Pstack.Props.C20_not_wrapping_mul",
    "Pstack.Props.C20_not_unsigned_mod",
    "Pstack.Props.C20_not_entry_value"
   ],
   "note": "All expression trees over 14 node kinds with every unary/binary operator, when signed arithmetic does not overflow and signed/unsigned remainder/order agree. Malformed expressions are undefined behaviour rather than rejected: proved as negations, as are wrapping multiplication, unsigned remainder, stack_value and entry_value. Not modelled: operators the code does not implement (it throws)."
  },
  {
   "property": "C21",
   "status": "partial",
   "theorems": [
    "Pstack.Props.C21_same_sign_partial",
    "Pstack.Props.C21_not_different_sign"
   ],
   "note": "Holds for operands of the same sign; for every pair of different signs all four operators give the opposite answer (the code compares unsigned)."
  },
  {
   "property": "C22",
   "status": "partial",
   "theorems": [
    "Pstack.Props.C22_v5_partial",
    "Pstack.Props.C22_v4_partial",
    "Pstack.Props.C22_location_partial",
    "Pstack.Props.C22_example",
    "Pstack.Props.C22_not_start_length",
    "Pstack.Props.C22_not_other_kinds",
    "Pstack.Props.C22_not_v4_base"
   ],
   "note": "DWARF 5 lists of offset pairs, base changes and (base 0) start/length entries; DWARF 2-4 lists of pairs; witnesses that start_length with a nonzero base, the other entry kinds and v4 base entries go wrong"
  },
  {
   "property": "C23",
   "status": "proved",
   "theorems": [
    "Pstack.Props.C23_tree",
    "Pstack.Props.C23_first",
    "Pstack.Props.C23_next",
    "Pstack.Props.C23_seen",
    "Pstack.Props.C23_ref",
    "Pstack.Props.C23_not_forms",
    "Pstack.Props.C23_not_abbreviation",
    "Pstack.Props.C23_not_typeUnit",
    "Pstack.Props.C23_not_purge"
   ],
   "note": "units of versions 2 to 5, from the bytes of .debug_info and .debug_abbrev; any history of visits, references, parent lookups and purges; excluded: forms data16, indirect, *_sup (C23_not_forms), type units (C23_not_typeUnit), entries kept over purge (C23_not_purge)"
  },
  {
   "property": "C24",
   "status": "proved",
   "theorems": [
    "Pstack.Props.C24_parent",
    "Pstack.Props.C24_root",
    "Pstack.Props.C24_example",
    "Pstack.Props.C24_not_purge"
   ],
   "note": "same units and histories; an entry kept over purge loses its parent (C24_not_purge)"
  },
  {
   "property": "C25",
   "status": "partial",
   "theorems": [
    "Pstack.Props.C25_own_partial",
    "Pstack.Props.C25_local",
    "Pstack.Props.C25_inherited_partial",
    "Pstack.Props.C25_follow",
    "Pstack.Props.C25_example",
    "Pstack.Props.C25_not_cycle",
    "Pstack.Props.C25_example_cycle",
    "Pstack.Props.C25_not_offset"
   ],
   "note": "any history over the units of a section: own attributes, attributes inherited through any chain of abstract origins and specifications (within and between units), none if there is none; missing: offsets of 2^31 and more in strp/line_strp/sec_offset (C25_not_offset); a circle of references never ends (C25_not_cycle); no alternate file"
  },
  {
   "property": "C26",
   "status": "partial",
   "theorems": [
    "Pstack.Props.C26_bounds",
    "Pstack.Props.C26_ranges",
    "Pstack.Props.C26_contains_partial",
    "Pstack.Props.C26_not_end",
    "Pstack.Props.C26_unknown",
    "Pstack.Props.C26_not_startx_endx",
    "Pstack.Props.C26_example",
    "Pstack.Props.C26_example_applies"
   ],
   "note": "Low/high pairs are half-open, all range list kinds but DW_RLE_startx_endx are read exactly, for all units, bases and histories. Missing: the address just after a range is reported as contained (C26_not_end), lists with startx_endx throw (C26_not_startx_endx), entries with both a low address and ranges that are not the root."
  },
  {
   "property": "C27",
   "status": "partial",
   "theorems": [
    "Pstack.Props.C27_rows_partial",
    "Pstack.Props.C27_example",
    "Pstack.Props.C27_example_applies",
    "Pstack.Props.C27_not_marks",
    "Pstack.Props.C27_not_fixed_advance",
    "Pstack.Props.C27_not_unknown",
    "Pstack.Props.C27_not_vliw",
    "Pstack.Props.C27_not_empty_directory",
    "Pstack.Props.C27_not_one_file"
   ],
   "note": "Header, directory and file tables (v2-v5) and rows proved against a separate spec of the DWARF line machine; prologue_end/epilogue_begin/discriminator excluded (disproved: sticky), unknown opcodes, VLIW, scaled fixed_advance disproved."
  },
  {
   "property": "C28",
   "status": "partial",
   "theorems": [
    "Pstack.Props.C28_source_partial",
    "Pstack.Props.C28_example",
    "Pstack.Props.C28_example_applies",
    "Pstack.Props.C28_not_unended"
   ],
   "note": "Source lookup over the bytes of a table; requires the last sequence to be ended (undefined behaviour otherwise, proved)."
  },
  {
   "property": "C29",
   "status": "partial",
   "theorems": [
    "Pstack.Props.C29_segment_lookup_partial",
    "Pstack.Props.C29_headers_read",
    "Pstack.Props.C29_not_empty_segment",
    "Pstack.Props.C29_not_empty_at_zero"
   ],
   "note": "for non-empty, disjoint, non-wrapping loadable segments; two witnesses show what empty segments do"
  },
  {
   "property": "C30",
   "status": "partial",
   "theorems": [
    "Pstack.Props.C30_symbol_by_address_partial",
    "Pstack.Props.C30_table_lookup",
    "Pstack.Props.C30_not_wrapping",
    "Pstack.Props.C30_example"
   ],
   "note": "symbols that do not wrap around the address space and whose names can be read; .symtab, then .dynsym, then the embedded object; a symbol ending at 2^64 is missed (witness)"
  },
  {
   "property": "C31",
   "status": "partial",
   "theorems": [
    "Pstack.Props.C31_gnu_lookup",
    "Pstack.Props.C31_sysv_lookup_partial",
    "Pstack.Props.C31_find_dynamic_symbol",
    "Pstack.Props.C31_not_abi_hash"
   ],
   "note": "GNU table: all names. ELF table: names of 7-bit characters, since elf_hash sign-extends characters (witness)"
  },
  {
   "property": "C32",
   "status": "partial",
   "theorems": [
    "Pstack.Props.C32_notes_partial",
    "Pstack.Props.C32_build_id",
    "Pstack.Props.C32_not_empty_segment",
    "Pstack.Props.C32_not_empty_name",
    "Pstack.Props.C32_example"
   ],
   "note": "segments with at least one note and NUL-terminated names; an empty note segment makes iteration throw and a nameless note takes its name from the descriptor (witnesses). Section iteration of debug images is modelled only as the shared per-extent loop"
  },
  {
   "property": "C33",
   "status": "partial",
   "theorems": [
    "Pstack.Props.C33_core_read_partial",
    "Pstack.Props.C33_byte_unique",
    "Pstack.Props.C33_example",
    "Pstack.Props.C33_not_first_byte",
    "Pstack.Props.C33_not_patched",
    "Pstack.Props.C33_not_truncated",
    "Pstack.Props.C33_not_terminating"
   ],
   "note": "For compatible overlaps of core and object segments. False otherwise: C33_not_first_byte, C33_not_patched, C33_not_truncated, C33_not_terminating."
  },
  {
   "property": "C34",
   "status": "partial",
   "theorems": [
    "Pstack.Props.C34_orderly",
    "Pstack.Props.C34_released",
    "Pstack.Props.C34_attached_partial",
    "Pstack.Props.C34_example",
    "Pstack.Props.C34_example_applies",
    "Pstack.Props.C34_not_unmatched",
    "Pstack.Props.C34_not_lingering"
   ],
   "note": "All histories: no double attach/detach, nothing left attached after destruction. Attached iff stops pending, for matched histories; unmatched resumes and lingering accounts break it (disproved)."
  },
  {
   "property": "C35",
   "status": "proved",
   "theorems": [
    "Pstack.Props.C35_all_stopped",
    "Pstack.Props.C35_none_escapes",
    "Pstack.Props.C35_listed",
    "Pstack.Props.C35_example",
    "Pstack.Props.C35_not_refused"
   ],
   "note": "Threads run, are created and end concurrently with the scan; the listing is read in pieces. Relies on: Linux lists threads in creation order (a reading can only miss a thread if one it listed went away), ids not reused, stop fails only for threads that ended. C35_not_refused shows the last is needed."
  },
  {
   "property": "C36",
   "status": "partial",
   "theorems": [
    "Pstack.Props.C36_objects",
    "Pstack.Props.C36_find_segment_partial",
    "Pstack.Props.C36_not_first_byte",
    "Pstack.Props.C36_example"
   ],
   "note": "All addresses but the first byte of an object that begins at its load address, which is never found (C36_not_first_byte). Objects must not interleave and must end below 2^64."
  },
  {
   "property": "C37",
   "status": "partial",
   "theorems": [
    "Pstack.Props.C37_threads_partial",
    "Pstack.Props.C37_history_partial",
    "Pstack.Props.C37_shrunk",
    "Pstack.Props.C37_not_shrink",
    "Pstack.Props.C38_example",
    "Pstack.Props.C38_example_threads",
    "Pstack.Props.C37_big",
    "Pstack.Props.C37_remembered"
   ],
   "note": "Full accounts for every schedule of threads and every history of calls, sizes being those blocks were allocated with; realloc to a smaller size does not change the account (negation proved)."
  },
  {
   "property": "C38",
   "status": "partial",
   "theorems": [
    "Pstack.Props.C38_never_partial",
    "Pstack.Props.C38_never_threads_partial",
    "Pstack.Props.C38_twice_partial",
    "Pstack.Props.C38_twice_threads_partial",
    "Pstack.Props.C38_overwritten_partial",
    "Pstack.Props.C38_overwritten_level2",
    "Pstack.Props.C38_not_before",
    "Pstack.Props.C38_not_threads",
    "Pstack.Props.C38_not_level0",
    "Pstack.Props.C38_not_fill",
    "Pstack.Props.C38_not_late",
    "Pstack.Props.C38_example",
    "Pstack.Props.C38_example_threads"
   ],
   "note": "Never reported: any history at any level >= 1 with one thread, any schedule of threads below level 2, without HDMP_FILL. Reported: double free while quarantined, overwritten guard words with the pointer intact. Negations proved for the rest."
  },
  {
   "property": "C39",
   "status": "partial",
   "theorems": [
    "Pstack.Props.C39_round_trip_partial",
    "Pstack.Props.C39_example",
    "Pstack.Props.C39_not_control",
    "Pstack.Props.C39_not_control_text",
    "Pstack.Props.C39_not_astral",
    "Pstack.Props.C39_not_invalid"
   ],
   "note": "Proved for all trees of nulls, booleans, integers, lists, string-keyed containers and JObjects whose strings are valid UTF-8 up to U+FFFF without control characters that lack a short form; the excluded strings are disproved"
  },
  {
   "property": "C40",
   "status": "proved",
   "theorems": [
    "Pstack.Props.C40_glob",
    "Pstack.Props.C40_example"
   ],
   "note": "All patterns and names without NULs"
  },
  {
   "property": "C41",
   "status": "partial",
   "theorems": [
    "Pstack.Props.C41_found_covers",
    "Pstack.Props.C41_attribution_partial",
    "Pstack.Props.C41_example",
    "Pstack.Props.C41_not_abutting"
   ],
   "note": "Soundness for all symbol sets; completeness when the symbols neither overlap nor touch; touching symbols disproved"
  },
  {
   "property": "C42",
   "status": "proved",
   "theorems": [
    "Pstack.Props.C42_dispatch",
    "Pstack.Props.C42_unknown",
    "Pstack.Props.C42_duplicate",
    "Pstack.Props.C42_example"
   ],
   "note": "All sets of options with distinct names and distinct printable short forms; getopt_long is modelled for options spelled in full"
  },
  {
   "property": "C43",
   "status": "partial",
   "theorems": [
    "Pstack.Props.C43_lzma_partial",
    "Pstack.Props.C43_lzma_size",
    "Pstack.Props.C43_lzma_past",
    "Pstack.Props.C43_lzma_until_error",
    "Pstack.Props.C43_not_after_error",
    "Pstack.Props.C43_not_short",
    "Pstack.Props.C43_inflate",
    "Pstack.Props.C43_inflate_read",
    "Pstack.Props.C43_inflate_short",
    "Pstack.Props.C43_inflate_refused",
    "Pstack.Props.C43_not_large",
    "Pstack.Props.C43_section",
    "Pstack.Props.C43_section_plain",
    "Pstack.Props.C43_zdebug_partial",
    "Pstack.Props.C43_zdebug_longer",
    "Pstack.Props.C43_not_zdebug_end",
    "Pstack.Props.C43_example",
    "Pstack.Props.C43_section_example"
   ],
   "note": "LZMA: after any history of reads any range inside the contents is returned exactly, for every block layout (liblzma's decoder and index given, with their documented meaning). zlib: the reader built from any conforming stream below 4 GiB has exactly its contents, for any read sizes of the source; SHF_COMPRESSED and .zdebug_ sections. Missing because false of the code: ranges beyond the end throw instead of being cut; after a block failed to decode, reads return zeros (C43_not_after_error); streams of 4 GiB or more are refused (C43_not_large); .zdebug_ streams are taken to be as long as their contents (C43_zdebug_longer, C43_not_zdebug_end)."
  },
  {
   "property": "C44",
   "status": "partial",
   "theorems": [
    "Pstack.Props.C44_maps_partial",
    "Pstack.Props.C44_inode_digit",
    "Pstack.Props.C44_inode_larger",
    "Pstack.Props.C44_inode_distinct",
    "Pstack.Props.C44_not_inode",
    "Pstack.Props.C44_not_flag",
    "Pstack.Props.C44_not_fileEnd",
    "Pstack.Props.C44_total",
    "Pstack.Props.C44_refused",
    "Pstack.Props.C44_example"
   ],
   "note": "Every file the kernel writes for any mappings is parsed into one range each: bounds, permissions, offset, device, path exact. Missing because false of the code: the inode is decimal but read as hexadecimal (C44_not_inode; different inodes stay different up to 16 digits), the first VmFlag is lost (C44_not_flag), fileEnd stays 0 (C44_not_fileEnd)."
  },
  {
   "property": "C45",
   "status": "partial",
   "theorems": [
    "Pstack.Props.C45_integers_partial",
    "Pstack.Props.C45_not_wide",
    "Pstack.Props.C45_not_wide_negative",
    "Pstack.Props.C45_not_huge"
   ],
   "note": "Exact for integers strictly between -2^63 and 2^63. Outside the property fails: the remainder modulo 2^64 is printed up to 2^90 (or undefined behaviour), beyond it is undefined; proved for all of them."
  },
  {
   "property": "C46",
   "status": "partial",
   "theorems": [
    "Pstack.Props.C46_one_piece_partial",
    "Pstack.Props.C46_not_little_endian"
   ],
   "note": "Holds for one piece; for more the code composes them in reverse order (first piece most significant)."
  },
  {
   "property": "C47",
   "status": "proved",
   "theorems": [
    "Pstack.Props.C47_terminates"
   ],
   "note": "The allowance of the model's evaluation loop never matters."
  },
  {
   "property": "C48",
   "status": "proved",
   "theorems": [
    "Pstack.Props.C48_cache_transparent"
   ],
   "note": "Failures are not stored (C++17 evaluates the right side of = first)."
  },
  {
   "property": "C49",
   "status": "partial",
   "theorems": [
    "Pstack.Props.C49_reported_partial",
    "Pstack.Props.C49_not_reported"
   ],
   "note": "Does not hold: C49_not_reported (unreadable frame pointer in the fallback). Holds when memory is readable."
  },
  {
   "property": "C50",
   "status": "proved",
   "theorems": [
    "Pstack.Props.C50_frame_pointer",
    "Pstack.Props.C50_bad_call",
    "Pstack.Props.C50_ends"
   ],
   "note": ""
  },
  {
   "property": "C51",
   "status": "partial",
   "theorems": [
    "Pstack.Props.C51_histogram_partial",
    "Pstack.Props.C51_collected"
   ],
   "note": "Symbols that neither overlap nor touch; one segment, 64-bit words"
  },
  {
   "property": "C52",
   "status": "proved",
   "theorems": [
    "Pstack.Props.C52_from_notes",
    "Pstack.Props.C52_core_registers",
    "Pstack.Props.C52_hypotheses",
    "Pstack.Props.C52_example"
   ],
   "note": ""
  },
  {
   "property": "C53",
   "status": "proved",
   "theorems": [
    "Pstack.Props.C53_mapped_files",
    "Pstack.Props.C53_core_files",
    "Pstack.Props.C53_example"
   ],
   "note": ""
  },
  {
   "property": "C54",
   "status": "proved",
   "theorems": [
    "Pstack.Props.C54_address_space",
    "Pstack.Props.C54_example"
   ],
   "note": "byte offset uses the page size of the machine pstack runs on (getpagesize), a parameter of the model"
  },
  {
   "property": "C55",
   "status": "partial",
   "theorems": [
    "Pstack.Props.C55_number_partial",
    "Pstack.Props.C55_int_partial",
    "Pstack.Props.C55_string_partial",
    "Pstack.Props.C55_not_forms",
    "Pstack.Props.C55_example",
    "Pstack.Props.C55_example_applies",
    "Pstack.Props.C55_not_alt"
   ],
   "note": "Constants, offsets below half the range (C25_not_offset covers the rest), indexed addresses and strings, range list indices, in all units and after any history. Missing: forms the library has no conversion for (C55_not_forms) and the alternate file."
  },
  {
   "property": "C56",
   "status": "proved",
   "theorems": [
    "Pstack.Props.C56_find",
    "Pstack.Props.C56_units",
    "Pstack.Props.C25_example",
    "Pstack.Props.C56_outside"
   ],
   "note": "units of any section of well-formed units; any history of earlier lookups"
  },
  {
   "property": "C57",
   "status": "partial",
   "theorems": [
    "Pstack.Props.C57_found_partial",
    "Pstack.Props.C57_only",
    "Pstack.Props.C57_not_gap",
    "Pstack.Props.C57_not_low",
    "Pstack.Props.C57_not_addrx",
    "Pstack.Props.C57_not_first",
    "Pstack.Props.C57_not_64",
    "Pstack.Props.C57_example"
   ],
   "note": "Found: for every layout of ranges that are apart and after any history, except ranges of a root's list for addresses smaller than the range is long; only: when no root has a list of ranges. The rest is false of the code (C57_not_gap, C57_not_low: the start of the range is remembered where its length is expected; C57_not_addrx, C57_not_first, C57_not_64). Exceptions end the lookup without a state; no alternate file."
  },
  {
   "property": "C58",
   "status": "partial",
   "theorems": [
    "Pstack.Props.C58_entry_partial",
    "Pstack.Props.C58_function_partial",
    "Pstack.Props.C58_nowhere",
    "Pstack.Props.C58_not_end",
    "Pstack.Props.C58_example",
    "Pstack.Props.C58_not_end_example"
   ],
   "note": "addresses that are the end of a range are left out (disproved: C58_not_end); the unit as in C57"
  },
  {
   "property": "C59",
   "status": "partial",
   "theorems": [
    "Pstack.Props.C59_chain_partial",
    "Pstack.Props.C59_nested_partial",
    "Pstack.Props.C59_example"
   ],
   "note": "addresses that are the end of a range are left out (disproved: C58_not_end)"
  },
  {
   "property": "C60",
   "status": "proved",
   "theorems": [
    "Pstack.Props.C60_apart",
    "Pstack.Props.C60_mapped",
    "Pstack.Props.C60_kept_threads",
    "Pstack.Props.C60_kept",
    "Pstack.Props.C60_calloc",
    "Pstack.Props.C60_realloc",
    "Pstack.Props.C60_aligned",
    "Pstack.Props.C60_malloc",
    "Pstack.Props.C60_not_calloc",
    "Pstack.Props.C60_not_memory",
    "Pstack.Props.C60_not_huge",
    "Pstack.Props.C38_example"
   ],
   "note": "For sizes that fit and a real allocator that has memory; negations for overflow and lack of memory."
  },
  {
   "property": "C61",
   "status": "proved",
   "theorems": [
    "Pstack.Props.C61_line"
   ],
   "note": "Tables as CPython 2 and 3 (to 3.9) write them; later versions do not have this table."
  },
  {
   "property": "C62",
   "status": "partial",
   "theorems": [
    "Pstack.Props.C62_dict_partial",
    "Pstack.Props.C62_two_partial",
    "Pstack.Props.C62_not_split",
    "Pstack.Props.C62_not_two",
    "Pstack.Props.C62_not_read"
   ],
   "note": "Python 3: all entries of combined tables, and of split ones whose keys all have values; Python 2: when the last place of the table is not in use. Negations for the rest."
  },
  {
   "property": "C63",
   "status": "partial",
   "theorems": [
    "Pstack.Props.C63_ends",
    "Pstack.Props.C63_once",
    "Pstack.Props.C63_renders_partial",
    "Pstack.Props.C63_not_complete",
    "Pstack.Props.C63_not_defined",
    "Pstack.Props.C63_not_level"
   ],
   "note": "Ends and expands once for all memories; rendering exact for well-formed objects, but lists and tuples are cut at 100 members, and after a read failed the level is wrong, or uninitialised memory is used (negations)."
  },
  {
   "property": "C64",
   "status": "partial",
   "theorems": [
    "Pstack.Props.C64_threads_partial",
    "Pstack.Props.C64_ends",
    "Pstack.Props.C64_not_interpreters"
   ],
   "note": "Up to 128 threads, all lists including circular ones; ends for all memories. A circular list of interpreters never ends (negation)."
  },
  {
   "property": "C65",
   "status": "partial",
   "theorems": [
    "Pstack.Props.C65_version_partial",
    "Pstack.Props.C65_not_ten"
   ],
   "note": "Numbers less than ten; negation for minor versions from 10 on."
  },
  {
   "property": "C66",
   "status": "partial",
   "theorems": [
    "Pstack.Props.C66_backtrace_partial",
    "Pstack.Props.C66_listing_partial"
   ],
   "note": "Whole output for all lists of interpreters, threads (to 128) and frames; with arguments, locals and modules if these are asked for, as far as C62, C63, C67 and C68 go."
  },
  {
   "property": "C67",
   "status": "partial",
   "theorems": [
    "Pstack.Props.C67_string_partial",
    "Pstack.Props.C67_not_nul",
    "Pstack.Props.C67_not_wide"
   ],
   "note": "ASCII strings without NUL, compact (Python 3) or Python 2's; negations for NUL and for strings with wide characters."
  },
  {
   "property": "C68",
   "status": "partial",
   "theorems": [
    "Pstack.Props.C68_frame_partial",
    "Pstack.Props.C68_not_balanced"
   ],
   "note": "All arguments, of all kinds; partial as to how they are written (negation: f(=() for a call without arguments), at most 128 keyword-only ones."
  },
  {
   "property": "C69",
   "status": "partial",
   "theorems": [
    "Pstack.Props.C69_locals_partial",
    "Pstack.Props.C68_frame_partial"
   ],
   "note": "All variables in order, with their values, as far as C62, C63 and C67 say how these are written."
  },
  {
   "property": "C70",
   "status": "partial",
   "theorems": [
    "Pstack.Props.C70_search_partial",
    "Pstack.Props.C70_debug_search_partial",
    "Pstack.Props.C70_build_id_partial",
    "Pstack.Props.C70_not_absolute",
    "Pstack.Props.C70_not_debug_link",
    "Pstack.Props.C70_not_build_id",
    "Pstack.Props.C70_not_long"
   ],
   "note": "Proved for relative names in a fresh context, and build ids whose file is not missing from a directory; negations for absolute names, debug links, build ids and long interpreters"
  },
  {
   "property": "C71",
   "status": "partial",
   "theorems": [
    "Pstack.Props.C71_transparent_partial",
    "Pstack.Props.C71_same_image",
    "Pstack.Props.C71_flushed",
    "Pstack.Props.C71_same_info",
    "Pstack.Props.C71_other_info",
    "Pstack.Props.C71_not_same_name",
    "Pstack.Props.C71_not_relative",
    "Pstack.Props.C71_debug_partial",
    "Pstack.Props.C71_no_ext_debug"
   ],
   "note": "Transparency for absolute names and build ids; the same image by build id and the same debug information until flushed, for all histories; negations for the identity of images found by name, and relative names"
  },
  {
   "property": "C72",
   "status": "partial",
   "theorems": [
    "Pstack.Props.C72_resolves",
    "Pstack.Props.C72_dangling",
    "Pstack.Props.C72_not_circle"
   ],
   "note": "Proved for all chains that end; negation for circles"
  },
  {
   "property": "C73",
   "status": "partial",
   "theorems": [
    "Pstack.Props.C73_no_local_partial",
    "Pstack.Props.C73_not_debug_link"
   ],
   "note": "Proved for lookups by name and build id; negation for debug links"
  },
  {
   "property": "C74",
   "status": "partial",
   "theorems": [
    "Pstack.Props.C74_objects_partial",
    "Pstack.Props.C74_static_partial",
    "Pstack.Props.C74_truncated_partial",
    "Pstack.Props.C74_not_moved",
    "Pstack.Props.C74_not_static_base",
    "Pstack.Props.C74_not_circular"
   ],
   "note": "Holds for programs with PT_PHDR or that are not moved (dynamic ones, static ones, and cores without link map). Not so for programs that are moved and have no PT_PHDR (cannot be opened), static position-independent ones (recorded at 0), circular link maps (no end)."
  },
  {
   "property": "C75",
   "status": "partial",
   "theorems": [
    "Pstack.Props.C75_executable_partial",
    "Pstack.Props.C75_not_later_note"
   ],
   "note": "Missing: a build id that is not the first note of its PT_NOTE segment is not found (C75_not_later_note)."
  },
  {
   "property": "C76",
   "status": "partial",
   "theorems": [
    "Pstack.Props.C76_name_partial",
    "Pstack.Props.C76_not_union",
    "Pstack.Props.C76_example"
   ],
   "note": "names in unions are left out by the code (negation proved); type units are not modelled"
  },
  {
   "property": "C77",
   "status": "partial",
   "theorems": [
    "Pstack.Props.C77_frame_partial",
    "Pstack.Props.C77_symbol_partial",
    "Pstack.Props.C77_not_before",
    "Pstack.Props.C77_example",
    "Pstack.Props.C77_symbol_example"
   ],
   "note": "addresses before the first range get a wrapped offset (negation proved); ends of ranges as in C58"
  },
  {
   "property": "C78",
   "status": "partial",
   "theorems": [
    "Pstack.Props.C78_value_partial",
    "Pstack.Props.C78_register_partial",
    "Pstack.Props.C78_not_unsigned",
    "Pstack.Props.C78_not_zero",
    "Pstack.Props.C78_not_width",
    "Pstack.Props.C78_not_readable",
    "Pstack.Props.C78_not_restrict",
    "Pstack.Props.C78_not_long_double",
    "Pstack.Props.C78_example",
    "Pstack.Props.C78_unsigned_example",
    "Pstack.Props.C78_others_example"
   ],
   "note": "Objects in memory and (of 8 bytes) in registers. Missing: floating point; negations: unsigned numbers from half the possible size, registers that are 0 or larger than the type, unreadable memory, restrict and atomic types, long double."
  },
  {
   "property": "C79",
   "status": "partial",
   "theorems": [
    "Pstack.Props.C79_arguments_partial",
    "Pstack.Props.C79_not_absent",
    "Pstack.Props.C79_not_computed",
    "Pstack.Props.C79_not_index",
    "Pstack.Props.C79_example",
    "Pstack.Props.C79_absent_example",
    "Pstack.Props.C79_computed_example",
    "Pstack.Props.C79_index_example"
   ],
   "note": "Missing: what is missing in C78, C20 and C22; negations: lists of locations with nothing for the instruction, computed values, indexes of lists."
  },
  {
   "property": "C80",
   "status": "partial",
   "theorems": [
    "Pstack.Props.C80_frame_partial",
    "Pstack.Props.C80_not_newline",
    "Pstack.Props.C80_not_lines",
    "Pstack.Props.C80_not_source",
    "Pstack.Props.C80_not_file"
   ],
   "note": "Missing: inlined functions when places in sources are not shown or not known, or their file is not in the table (disproved); and what C76-C79 and C27 miss. C80_not_lines: in a unit without a line table the inlined lines are not ended, and the function is shown at the innermost place."
  },
  {
   "property": "C81",
   "status": "partial",
   "theorems": [
    "Pstack.Props.C81_stack_partial"
   ],
   "note": "Missing: what C80 misses."
  },
  {
   "property": "C82",
   "status": "partial",
   "theorems": [
    "Pstack.Props.C82_visit_partial",
    "Pstack.Props.C82_vendor",
    "Pstack.Props.C82_none",
    "Pstack.Props.C82_not_end",
    "Pstack.Props.C82_not_lines",
    "Pstack.Props.C82_not_operands",
    "Pstack.Props.C82_not_width",
    "Pstack.Props.C82_not_offset",
    "Pstack.Props.C82_not_circle"
   ],
   "note": "Missing: text by position in lists whose offsets have another size than those of the unit (C82_not_width); lists with vendors' entries (C82_not_operands); lists without line table that enter files (C82_not_lines), lists without end (C82_not_end), lists that import themselves (C82_not_circle); line tables at 2^31 and above (C82_not_offset); line tables C27 leaves out."
  },
  {
   "property": "C83",
   "status": "partial",
   "theorems": [
    "Pstack.Props.C83_visit_partial",
    "Pstack.Props.C83_not_stop",
    "Pstack.Props.C83_not_vendor"
   ],
   "note": "Missing: visitors that say to stop at a definition (C83_not_stop); lists with vendors' entries (C83_not_vendor); line tables C27 leaves out."
  },
  {
   "property": "C84",
   "status": "partial",
   "theorems": [
    "Pstack.Props.C84_names_partial",
    "Pstack.Props.C84_none",
    "Pstack.Props.C84_not_long",
    "Pstack.Props.C84_not_wide",
    "Pstack.Props.C84_not_again"
   ],
   "note": "Sets of less than 64k, with 32-bit offsets. C84_not_long: larger sets lose names. C84_not_wide: 64-bit sets are misread. C84_not_again: after an exception, a second call gives what had been read."
  },
  {
   "property": "C85",
   "status": "partial",
   "theorems": [
    "Pstack.Props.C85_found_partial",
    "Pstack.Props.C85_compressed",
    "Pstack.Props.C85_split_compressed",
    "Pstack.Props.C85_split",
    "Pstack.Props.C85_none",
    "Pstack.Props.C85_stripped",
    "Pstack.Props.C85_debug_own",
    "Pstack.Props.C85_debug_other",
    "Pstack.Props.C85_linked",
    "Pstack.Props.C85_not_type",
    "Pstack.Props.C85_not_short",
    "Pstack.Props.C85_not_again",
    "Pstack.Props.C85_not_link"
   ],
   "note": "Missing: sections that are not the last of their name (C85_not_type). Undefined: short names (C85_not_short), searches after one that threw (C85_not_again), wrong links (C85_not_link)."
  },
  {
   "property": "C86",
   "status": "partial",
   "theorems": [
    "Pstack.Props.C86_found_partial",
    "Pstack.Props.C86_address",
    "Pstack.Props.C86_lookup",
    "Pstack.Props.C86_not_hidden",
    "Pstack.Props.C86_not_named",
    "Pstack.Props.C86_not_again"
   ],
   "note": "Missing: definitions that are not the last of their name in the symbol table (C86_not_hidden). Also: C86_not_named, C86_not_again."
  },
  {
   "property": "C87",
   "status": "partial",
   "theorems": [
    "Pstack.Props.C87_arguments_partial",
    "Pstack.Props.C87_outcome",
    "Pstack.Props.C87_usage",
    "Pstack.Props.C87_repeats",
    "Pstack.Props.C87_not_interrupted",
    "Pstack.Props.C87_not_all"
   ],
   "note": "Missing: with -b, or after an interrupt (C87_not_interrupted). Also: C87_not_all."
  },
  {
   "property": "C88",
   "status": "partial",
   "theorems": [
    "Pstack.Props.C88_words_partial",
    "Pstack.Props.C88_program",
    "Pstack.Props.C88_continued",
    "Pstack.Props.C88_shown",
    "Pstack.Props.C88_killed",
    "Pstack.Props.C88_ends",
    "Pstack.Props.C88_not_words",
    "Pstack.Props.C88_not_fatal",
    "Pstack.Props.C88_not_realtime",
    "Pstack.Props.C88_not_status",
    "Pstack.Props.C88_not_gone"
   ],
   "note": "Missing: the arguments in the middle of three words or more (C88_not_words). Also: C88_not_fatal, C88_not_realtime, C88_not_status, C88_not_gone."
  },
  {
   "property": "C89",
   "status": "partial",
   "theorems": [
    "Pstack.Props.C89_stacks_partial",
    "Pstack.Props.C89_core",
    "Pstack.Props.C89_name_partial",
    "Pstack.Props.C89_not_fp",
    "Pstack.Props.C89_not_line",
    "Pstack.Props.C89_example",
    "Pstack.Props.C89_example_name"
   ],
   "note": "Missing: threads with general registers only (C89_not_fp), names with a newline (C89_not_line), and executions in which unwinding throws something other than a pstack exception (hypothesis of C89_stacks_partial)."
  },
  {
   "property": "C90",
   "status": "partial",
   "theorems": [
    "Pstack.Props.C90_report_partial",
    "Pstack.Props.C90_record",
    "Pstack.Props.C90_not_sent",
    "Pstack.Props.C90_not_io",
    "Pstack.Props.C90_example",
    "Pstack.Props.C90_example_report"
   ],
   "note": "Missing: what C80/C81 miss; codes out of the tables faults and senders. C90_not_sent, C90_not_io."
  },
  {
   "property": "C91",
   "status": "partial",
   "theorems": [
    "Pstack.Props.C91_source_partial",
    "Pstack.Props.C91_frame_partial",
    "Pstack.Props.C91_stack_partial",
    "Pstack.Props.C91_example",
    "Pstack.Props.C91_example_stack"
   ],
   "note": "Missing: what C57, C58, C28 and C80 miss (range lists at low addresses, addresses at the end of ranges, line programs that are not supported)."
  },
  {
   "property": "C92",
   "status": "partial",
   "theorems": [
    "Pstack.Props.C92_blocks_partial",
    "Pstack.Props.C92_report_partial",
    "Pstack.Props.C92_options",
    "Pstack.Props.C92_example",
    "Pstack.Props.C92_not_last",
    "Pstack.Props.C92_not_big",
    "Pstack.Props.C92_not_crash",
    "Pstack.Props.C92_not_circle"
   ],
   "note": "Missing: descriptors at the end of memory (C92_not_last), released large blocks whose memory is gone (C92_not_big), failures with stacks longer than those of blocks (C92_not_crash), lists that are circles (C92_not_circle)."
  },
  {
   "property": "C93",
   "status": "partial",
   "theorems": [
    "Pstack.Props.C93_version_partial",
    "Pstack.Props.C93_none",
    "Pstack.Props.C93_unknown",
    "Pstack.Props.C93_files",
    "Pstack.Props.C93_predecessor",
    "Pstack.Props.C93_symbol",
    "Pstack.Props.C93_no_symbols",
    "Pstack.Props.C93_example",
    "Pstack.Props.C93_not_hidden"
   ],
   "note": "Missing: versions whose own index has bit 15 set (C93_not_hidden)."
  },
  {
   "property": "C94",
   "status": "partial",
   "theorems": [
    "Pstack.Props.C94_name_partial",
    "Pstack.Props.C94_not_handled",
    "Pstack.Props.C94_not_circle",
    "Pstack.Props.C94_example",
    "Pstack.Props.C94_handled_example",
    "Pstack.Props.C94_circle_example"
   ],
   "note": "Missing: restrict, rvalue reference, atomic and other unnamed types (C94_not_handled), types that refer to themselves (C94_not_circle)."
  },
  {
   "property": "C95",
   "status": "partial",
   "theorems": [
    "Pstack.Props.C95_lines_partial",
    "Pstack.Props.C95_not_segment",
    "Pstack.Props.C95_not_entry",
    "Pstack.Props.C95_not_inside",
    "Pstack.Props.C95_example",
    "Pstack.Props.C95_segment_example",
    "Pstack.Props.C95_entry_example"
   ],
   "note": "Missing: symbols in no segment (C95_not_segment), functions without an entry (C95_not_entry), functions inside the range of an entry (C95_not_inside)."
  },
  {
   "property": "C96",
   "status": "partial",
   "theorems": [
    "Pstack.Props.C96_places_partial",
    "Pstack.Props.C96_not_once",
    "Pstack.Props.C96_not_there",
    "Pstack.Props.C96_not_long",
    "Pstack.Props.C96_not_rest",
    "Pstack.Props.C96_ends",
    "Pstack.Props.C96_example",
    "Pstack.Props.C96_once_example"
   ],
   "note": "Missing: all segments with the string in them, short ones and long ones (C96_not_once, C96_not_there, C96_not_long, C96_not_rest)."
  },
  {
   "property": "C97",
   "status": "partial",
   "theorems": [
    "Pstack.Props.C97_references_partial",
    "Pstack.Props.C97_not_multiple",
    "Pstack.Props.C97_not_last",
    "Pstack.Props.C97_not_order",
    "Pstack.Props.C97_example"
   ],
   "note": "Missing: segments not made up of whole words (C97_not_multiple), the last address (C97_not_last), -e before any -f (C97_not_order)."
  },
  {
   "property": "C98",
   "status": "partial",
   "theorems": [
    "Pstack.Props.C98_report_partial",
    "Pstack.Props.C98_not_zero",
    "Pstack.Props.C98_not_touching",
    "Pstack.Props.C98_not_beyond",
    "Pstack.Props.C98_example",
    "Pstack.Props.scan_words",
    "Pstack.Props.C98_touching_example"
   ],
   "note": "Missing: symbols that touch (C98_not_touching) or overlap, -o 0 (C98_not_zero) and offsets larger than the symbol (C98_not_beyond)."
  },
  {
   "property": "C99",
   "status": "partial",
   "theorems": [
    "Pstack.Props.C99_program_partial",
    "Pstack.Props.C99_not_negative",
    "Pstack.Props.C99_not_step",
    "Pstack.Props.C99_not_val_offset",
    "Pstack.Props.C99_example",
    "Pstack.Props.C99_gnu_partial",
    "Pstack.Props.C99_unknown_partial"
   ],
   "note": "Missing: negative factored offsets (C99_not_negative), steps of 2^31 or more (C99_not_step), DW_CFA_val_offset and DW_CFA_val_offset_sf (C99_not_val_offset)."
  },
  {
   "property": "C100",
   "status": "partial",
   "theorems": [
    "Pstack.Props.C100_symbols_partial",
    "Pstack.Props.C100_relocations_partial",
    "Pstack.Props.C100_not_named",
    "Pstack.Props.C100_not_addend",
    "Pstack.Props.C100_example"
   ],
   "note": "Missing: types and bindings shown under other names (C100_not_named), addends (C100_not_addend), names with characters that C39 excludes."
  },
  {
   "property": "C101",
   "status": "partial",
   "theorems": [
    "Pstack.Props.C101_stacks_partial",
    "Pstack.Props.C101_not_before_start",
    "Pstack.Props.C101_not_unknown",
    "Pstack.Props.C101_example"
   ],
   "note": "Missing: frames that lie before the start of their function (C101_not_before_start), offsets that are not known, which are written as a number (C101_not_unknown), strings with characters that C39 excludes."
  },
  {
   "property": "C102",
   "status": "partial",
   "theorems": [
    "Pstack.Props.C102_object_partial",
    "Pstack.Props.C102_not_defined",
    "Pstack.Props.C102_not_named",
    "Pstack.Props.C102_example"
   ],
   "note": "Missing: types and brands without a name in the program's tables (C102_not_defined), segments of types it has no name for (C102_not_named), the texts for sections, notes, versions and dynamic entries, strings that C39 excludes."
  }
 ]
}