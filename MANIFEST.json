{
 "claims": [
  {
   "property": "C01",
   "status": "proved",
   "theorems": [
    "Dld.C01_elf_hash_is_gabi"
   ],
   "note": ""
  },
  {
   "property": "C02",
   "status": "proved",
   "theorems": [
    "Dld.C02_gnu_hash_is_polynomial"
   ],
   "note": ""
  },
  {
   "property": "C03",
   "status": "proved",
   "theorems": [
    "Dld.C03_interning_stable_injective"
   ],
   "note": ""
  },
  {
   "property": "C04",
   "status": "proved",
   "theorems": [
    "Dld.C04_image_reads_back"
   ],
   "note": ""
  },
  {
   "property": "C05",
   "status": "proved",
   "theorems": [
    "Dld.C05_lookup_inverts_interning"
   ],
   "note": ""
  },
  {
   "property": "C06",
   "status": "proved",
   "theorems": [
    "Dld.C06_image_length"
   ],
   "note": ""
  },
  {
   "property": "C46",
   "status": "proved",
   "theorems": [
    "Dld.C46_header_roundtrip"
   ],
   "note": ""
  },
  {
   "property": "C47",
   "status": "proved",
   "theorems": [
    "Dld.C47_entries_roundtrip"
   ],
   "note": ""
  },
  {
   "property": "C07",
   "status": "proved",
   "theorems": [
    "Dld.C07_two_strong_definitions_rejected"
   ],
   "note": "mentions of the name restricted to the bindings local, global, weak"
  },
  {
   "property": "C08",
   "status": "partial",
   "theorems": [
    "Dld.C08_no_spurious_duplicates_violated",
    "Dld.C08_no_spurious_duplicates_partial"
   ],
   "note": "the code violates the full claim; exact error condition proved"
  },
  {
   "property": "C09",
   "status": "proved",
   "theorems": [
    "Dld.C09_binding_is_strongest"
   ],
   "note": ""
  },
  {
   "property": "C10",
   "status": "partial",
   "theorems": [
    "Dld.C10_defined_stays_defined_violated",
    "Dld.C10_defined_stays_defined_partial"
   ],
   "note": "violated for a weak definition followed by a global undefined reference"
  },
  {
   "property": "C11",
   "status": "partial",
   "theorems": [
    "Dld.C11_definition_data_violated",
    "Dld.C11_definition_data_partial",
    "Dld.C11_late_violated"
   ],
   "note": "violated by every link in which a reference of the same binding comes first"
  },
  {
   "property": "C12",
   "status": "partial",
   "theorems": [
    "Dld.C12_locals_separate_violated",
    "Dld.C12_locals_separate_partial"
   ],
   "note": "violated: local symbols of the same name are merged"
  },
  {
   "property": "C13",
   "status": "partial",
   "theorems": [
    "Dld.C13_num_locals_violated",
    "Dld.C13_num_locals_partial",
    "Dld.C13_first_nonlocal_partial"
   ],
   "note": "violated for names that are both local and non-local"
  },
  {
   "property": "C14",
   "status": "partial",
   "theorems": [
    "Dld.C14_order_partial",
    "Dld.C14_null_first_when_no_locals",
    "Dld.C14_order_violated"
   ],
   "note": "null symbol first only if no other local symbol has GNU hash 0"
  },
  {
   "property": "C15",
   "status": "proved",
   "theorems": [
    "Dld.C15_image_decodes",
    "Dld.C15_keys"
   ],
   "note": ""
  },
  {
   "property": "C76",
   "status": "partial",
   "theorems": [
    "Dld.C76_duplicate_error_names_a_definition_violated",
    "Dld.C76_duplicate_error_names_a_definition_partial"
   ],
   "note": ""
  },
  {
   "property": "C16",
   "status": "proved",
   "theorems": [
    "Dld.C16_sysv_lookup"
   ],
   "note": ""
  },
  {
   "property": "C17",
   "status": "partial",
   "theorems": [
    "Dld.C17_gnu_lookup_violated",
    "Dld.C17_gnu_lookup_partial"
   ],
   "note": "violated when a bucket's symbols are not contiguous in hash order"
  },
  {
   "property": "C18",
   "status": "proved",
   "theorems": [
    "Dld.C18_bloom_no_false_negatives"
   ],
   "note": "fewer than 2^28 symbols"
  },
  {
   "property": "C19",
   "status": "proved",
   "theorems": [
    "Dld.C19_sysv_layout",
    "Dld.C19_gnu_layout"
   ],
   "note": ""
  },
  {
   "property": "C29",
   "status": "proved",
   "theorems": [
    "Dld.C29_psabi_value",
    "Dld.C29_in_range_applies"
   ],
   "note": "32S only when the value fits (see C31); relaxed forms are C32, C33; GOT32 is C77"
  },
  {
   "property": "C30",
   "status": "proved",
   "theorems": [
    "Dld.C30_only_own_field"
   ],
   "note": ""
  },
  {
   "property": "C31",
   "status": "partial",
   "theorems": [
    "Dld.C31_violated",
    "Dld.C31_overflow_stops_partial"
   ],
   "note": "violated for 32S (truncated) and 32 (checked as signed)"
  },
  {
   "property": "C32",
   "status": "proved",
   "theorems": [
    "Dld.C32_load_becomes_lea",
    "Dld.C32_every_register"
   ],
   "note": ""
  },
  {
   "property": "C33",
   "status": "partial",
   "theorems": [
    "Dld.C33_violated",
    "Dld.C33_direct_branch_partial"
   ],
   "note": "violated on every relaxation: the branch goes to S-1"
  },
  {
   "property": "C34",
   "status": "proved",
   "theorems": [
    "Dld.C34_unsupported_types"
   ],
   "note": ""
  },
  {
   "property": "C35",
   "status": "proved",
   "theorems": [
    "Dld.C35_order_irrelevant",
    "Dld.C35_each_field"
   ],
   "note": ""
  },
  {
   "property": "C77",
   "status": "partial",
   "theorems": [
    "Dld.C77_violated",
    "Dld.C77_got32_partial"
   ],
   "note": "violated unless the GOT is at the relocated place"
  },
  {
   "property": "C78",
   "status": "partial",
   "theorems": [
    "Dld.C78_violated",
    "Dld.C78_tpoff32_partial"
   ],
   "note": "violated: the address is stored"
  },
  {
   "property": "C36",
   "status": "proved",
   "theorems": [
    "Dld.C36_compare_total_preorder",
    "Dld.C36_section_order"
   ],
   "note": ""
  },
  {
   "property": "C75",
   "status": "proved",
   "theorems": [
    "Dld.C75_round_to_least"
   ],
   "note": ""
  },
  {
   "property": "C37",
   "status": "proved",
   "theorems": [
    "Dld.C37_program_headers_fit"
   ],
   "note": "no pushed section with flags exactly SHF_WRITE, none of type SHT_DYNAMIC"
  },
  {
   "property": "C38",
   "status": "partial",
   "theorems": [
    "Dld.C38_copyrel_overlap_violated",
    "Dld.C38_sections_disjoint_partial"
   ],
   "note": "violated by .copyrel, which gets its size after layout"
  },
  {
   "property": "C40",
   "status": "proved",
   "theorems": [
    "Dld.C40_load_segments"
   ],
   "note": ""
  },
  {
   "property": "C41",
   "status": "partial",
   "theorems": [
    "Dld.C41_copyrel_outside_violated",
    "Dld.C41_covered_partial"
   ],
   "note": "violated by .copyrel, which gets its size after layout"
  },
  {
   "property": "C42",
   "status": "partial",
   "theorems": [
    "Dld.C42_mapped_violated",
    "Dld.C42_mapped_partial"
   ],
   "note": "violated behind a zero-fill section of the same flags"
  },
  {
   "property": "C43",
   "status": "partial",
   "theorems": [
    "Dld.C43_section_alignment_violated",
    "Dld.C43_input_alignment_violated",
    "Dld.C43_section_alignment_partial"
   ],
   "note": "violated: no padding is inserted"
  },
  {
   "property": "C44",
   "status": "partial",
   "theorems": [
    "Dld.C44_interp_address_violated",
    "Dld.C44_interp_dynamic_partial"
   ],
   "note": "violated when an input section is named .interp"
  },
  {
   "property": "C45",
   "status": "proved",
   "theorems": [
    "Dld.C45_phdr"
   ],
   "note": ""
  },
  {
   "property": "C67",
   "status": "proved",
   "theorems": [
    "Dld.Cli.C67_accepted",
    "Dld.Cli.C67_meaning",
    "Dld.Cli.C67_missing_value"
   ],
   "note": ""
  },
  {
   "property": "C68",
   "status": "proved",
   "theorems": [
    "Dld.Cli.C68_build_id",
    "Dld.Cli.C68_last_build_id",
    "Dld.Cli.C68_values"
   ],
   "note": ""
  },
  {
   "property": "C69",
   "status": "partial",
   "theorems": [
    "Dld.Cli.C69_hash_style_violated",
    "Dld.Cli.C69_hash_style_partial"
   ],
   "note": ""
  },
  {
   "property": "C71",
   "status": "proved",
   "theorems": [
    "Dld.Cli.C71_file_type"
   ],
   "note": ""
  },
  {
   "property": "C72",
   "status": "partial",
   "theorems": [
    "Dld.Cli.C72_first_directory_violated",
    "Dld.Cli.C72_order_violated",
    "Dld.Cli.C72_search_partial"
   ],
   "note": "violated when several directories have a candidate"
  },
  {
   "property": "C73",
   "status": "partial",
   "theorems": [
    "Dld.Script.C73_termination_violated",
    "Dld.Script.C73_termination_partial"
   ],
   "note": "violated on texts that start no known command"
  },
  {
   "property": "C79",
   "status": "partial",
   "theorems": [
    "Dld.Cli.C79_scripts_end_violated",
    "Dld.Cli.C79_scripts_end_partial"
   ],
   "note": "violated by scripts that include themselves"
  },
  {
   "property": "C80",
   "status": "partial",
   "theorems": [
    "Dld.Cli.C80_script_inputs_violated",
    "Dld.Cli.C80_inputs_partial"
   ],
   "note": "violated for inputs named by scripts"
  },
  {
   "property": "C81",
   "status": "partial",
   "theorems": [
    "Dld.Script.C81_group_words_violated",
    "Dld.Script.C81_group_words_partial"
   ],
   "note": "violated for group words that begin with A"
  },
  {
   "property": "C39",
   "status": "proved",
   "theorems": [
    "Dld.C39_file_ranges"
   ],
   "note": "read from the bytes of the file"
  },
  {
   "property": "C48",
   "status": "proved",
   "theorems": [
    "Dld.C48_section_table"
   ],
   "note": "read from the bytes of the file"
  },
  {
   "property": "C49",
   "status": "proved",
   "theorems": [
    "Dld.C49_names"
   ],
   "note": "read from the bytes of the file"
  },
  {
   "property": "C51",
   "status": "proved",
   "theorems": [
    "Dld.C51_dynamic"
   ],
   "note": "read from the bytes of the file; for inputs without sections of the dynamic linking types"
  },
  {
   "property": "C52",
   "status": "proved",
   "theorems": [
    "Dld.C52_needed"
   ],
   "note": "read from the bytes of the file"
  },
  {
   "property": "C70",
   "status": "proved",
   "theorems": [
    "Dld.C70_hash_style"
   ],
   "note": "read from the bytes of the file"
  },
  {
   "property": "C82",
   "status": "partial",
   "theorems": [
    "Dld.C82_links_violated",
    "Dld.C82_links_partial"
   ],
   "note": "violated for input sections with a section reference"
  },
  {
   "property": "C20",
   "status": "proved",
   "theorems": [
    "Dld.C20_plt_slots",
    "Dld.plt_in_file"
   ],
   "note": "C20_plt_slots for every history of calls; plt_in_file reads the slots from the bytes of the file"
  },
  {
   "property": "C21",
   "status": "proved",
   "theorems": [
    "Dld.C21_got_slots",
    "Dld.got_slots_distinct"
   ],
   "note": "C21_got_slots for every history of calls; got_slots_distinct against the .got section read from the file"
  },
  {
   "property": "C22",
   "status": "partial",
   "theorems": [
    "Dld.C22_tlsgd_pair_violated",
    "Dld.C22_tlsgd_pair_partial"
   ],
   "note": "violated if the first GOT relocation of the symbol is not TLSGD"
  },
  {
   "property": "C23",
   "status": "proved",
   "theorems": [
    "Dld.plt_in_file"
   ],
   "note": "the bytes of .plt in the file decoded as x86-64 instructions"
  },
  {
   "property": "C24",
   "status": "proved",
   "theorems": [
    "Dld.plt_in_file"
   ],
   "note": "read from the bytes of the file"
  },
  {
   "property": "C25",
   "status": "proved",
   "theorems": [
    "Dld.glob_dat_in_file"
   ],
   "note": "read from the bytes of the file"
  },
  {
   "property": "C26",
   "status": "partial",
   "theorems": [
    "Dld.C26_local_got_slot_violated",
    "Dld.C26_local_slot_partial"
   ],
   "note": "violated for every symbol of the executable with a GOT slot: the slot holds zero and no GLOB_DAT fills it"
  },
  {
   "property": "C27",
   "status": "proved",
   "theorems": [
    "Dld.scan_only_redirects_calls"
   ],
   "note": ""
  },
  {
   "property": "C28",
   "status": "proved",
   "theorems": [
    "Dld.copies_in_file"
   ],
   "note": "read from the bytes of the file"
  },
  {
   "property": "C50",
   "status": "partial",
   "theorems": [
    "Dld.C50_merged_violated",
    "Dld.C50_merged_partial",
    "Dld.C50_unrelocated_partial"
   ],
   "note": "violated for the names .hash, .gnu.hash and .copyrel; for every other name that is not the writer's own the section in the file has the summed size, the largest alignment and the pushed bytes in order"
  },
  {
   "property": "C53",
   "status": "partial",
   "theorems": [
    "Dld.C53_violated",
    "Dld.C53_partial"
   ],
   "note": "violated for definitions that follow a reference: the offset is dropped; read from the bytes of the file"
  },
  {
   "property": "C54",
   "status": "partial",
   "theorems": [
    "Dld.C54_violated",
    "Dld.C54_partial"
   ],
   "note": "violated when a name is attached to two sections; read from the bytes of the file"
  },
  {
   "property": "C55",
   "status": "partial",
   "theorems": [
    "Dld.C55_violated",
    "Dld.C55_every_violated",
    "Dld.C55_partial"
   ],
   "note": "violated by every link with two zero-fill sections of one name; symbols of data sections do not overlap"
  },
  {
   "property": "C57",
   "status": "proved",
   "theorems": [
    "Dld.C57_entry"
   ],
   "note": "read from the bytes of the file"
  },
  {
   "property": "C58",
   "status": "proved",
   "theorems": [
    "Dld.C58_got"
   ],
   "note": "read from the bytes of the file"
  },
  {
   "property": "C56",
   "status": "partial",
   "theorems": [
    "Dld.C56_end_violated",
    "Dld.C56_partial"
   ],
   "note": "violated for the end symbols when several inputs have the array; the start symbols are right, and the end symbols with one input"
  },
  {
   "property": "C83",
   "status": "proved",
   "theorems": [
    "Dld.Linker.C83_blame"
   ],
   "note": ""
  },
  {
   "property": "C84",
   "status": "partial",
   "theorems": [
    "Dld.C84_reference_violated",
    "Dld.Linker.C84_reference_partial"
   ],
   "note": "violated: the message names the first file that mentions the symbol; that file does mention it, and another symbol with a definition exists"
  },
  {
   "property": "C59",
   "status": "proved",
   "theorems": [
    "Dld.Linker.C59_resolved",
    "Dld.Linker.C59_listed"
   ],
   "note": "with the list of names being exactly the unresolved ones; no output bytes exist when an error is returned"
  },
  {
   "property": "C60",
   "status": "proved",
   "theorems": [
    "Dld.Linker.C60_terminates",
    "Dld.C60_untruthful_diverges"
   ],
   "note": "the second theorem shows that the assumption is needed"
  },
  {
   "property": "C61",
   "status": "partial",
   "theorems": [
    "Dld.C61_moment_violated",
    "Dld.Linker.C61_needed_partial"
   ],
   "note": "violated: within a round the list of undefined symbols is not updated; each member was needed at the start of its round"
  },
  {
   "property": "C62",
   "status": "partial",
   "theorems": [
    "Dld.C62_defined_violated",
    "Dld.Linker.C62_needed_partial"
   ],
   "note": "violated: undefined entries of a library count; every import has an entry in a library recorded as needed"
  },
  {
   "property": "C63",
   "status": "partial",
   "theorems": [
    "Dld.Linker.C63_flag_violated",
    "Dld.C63_needed_violated",
    "Dld.Linker.C63_used_partial"
   ],
   "note": "violated: the flag makes no difference; libraries that are recorded are used"
  },
  {
   "property": "C64",
   "status": "partial",
   "theorems": [
    "Dld.C64_section_violated",
    "Dld.Linker.C64_section_partial"
   ],
   "note": "violated: the section before the relocation section is taken; right when that is the one sh_info names"
  },
  {
   "property": "C65",
   "status": "proved",
   "theorems": [
    "Dld.Linker.C65_error",
    "Dld.Linker.C65_ok",
    "Dld.Linker.C65_own_input"
   ],
   "note": ""
  },
  {
   "property": "C66",
   "status": "partial",
   "theorems": [
    "Dld.C66_order_violated",
    "Dld.C66_layout_partial",
    "Dld.C66_symbols_partial",
    "Dld.C66_bindings_partial",
    "Dld.C66_contents_partial",
    "Dld.C66_objects_partial",
    "Dld.Linker.C66_files_partial"
   ],
   "note": "violated: the bytes depend on the order of hash maps; proved: layout, headers, names, the set of symbols, and what the loader binds do not depend on it, nor (without COPY relocations) the contents of any section outside the ordered tables; object files alone with distinct symbol hashes give the same bytes; the unstable sort is taken to be the same function in both runs"
  },
  {
   "property": "C74",
   "status": "partial",
   "theorems": [
    "Dld.C74_locks_partial",
    "Dld.Hist.computeLocks_calm",
    "Dld.C74_trace_violated",
    "Dld.C74_named_violated"
   ],
   "note": "Violated: with trace logging every link that reaches write_to_disk blocks on .shstrtab; without logging, inputs with a section named .symtab (holding a symbol) or .plt (calling a library function) block. Proved: without logging and without input sections named like the writer's own, no call, no step of compute_sections and no part of write_to_disk waits for a lock the thread holds, and all guards are released."
  },
  {
   "property": "C85",
   "status": "partial",
   "theorems": [
    "Dld.C85_memory_violated",
    "Dld.C85_contents_partial",
    "Dld.C85_zero_partial"
   ],
   "note": "violated with a zero-fill section of larger alignment; holds for every section with contents that has no zero-fill section with the same flags before it, and for every zero-fill section other than .copyrel with no contents behind it"
  },
  {
   "property": "C86",
   "status": "proved",
   "theorems": [
    "Dld.C86_interpreter"
   ],
   "note": "read from the bytes of the file"
  },
  {
   "property": "C87",
   "status": "partial",
   "theorems": [
    "Dld.C87_dynamic_violated",
    "Dld.C87_dynamic_partial"
   ],
   "note": "violated with a zero-fill section of larger alignment"
  },
  {
   "property": "C88",
   "status": "proved",
   "theorems": [
    "Dld.C88_direct",
    "Dld.C88_to_definition"
   ],
   "note": "read from the bytes of the file"
  },
  {
   "property": "C89",
   "status": "proved",
   "theorems": [
    "Dld.C89_section"
   ],
   "note": ""
  },
  {
   "property": "C90",
   "status": "proved",
   "theorems": [
    "Dld.C90_call"
   ],
   "note": ""
  },
  {
   "property": "C91",
   "status": "proved",
   "theorems": [
    "Dld.C91_got_load"
   ],
   "note": ""
  },
  {
   "property": "C92",
   "status": "partial",
   "theorems": [
    "Dld.C92_direct_import_violated",
    "Dld.C92_copied_partial"
   ],
   "note": "violated for symbols that are not data objects; data objects left undefined by the objects lead to their copy"
  },
  {
   "property": "C93",
   "status": "proved",
   "theorems": [
    "Dld.C93_relaxed_load"
   ],
   "note": ""
  },
  {
   "property": "C94",
   "status": "proved",
   "theorems": [
    "Dld.C94_sysv_find"
   ],
   "note": "fewer than 2^32 dynamic symbols"
  },
  {
   "property": "C95",
   "status": "partial",
   "theorems": [
    "Dld.C95_gnu_find_violated",
    "Dld.C95_gnu_find_partial"
   ],
   "note": "violated when a bucket's symbols are not contiguous; holds for fewer than eight entries or contiguous buckets"
  },
  {
   "property": "C96",
   "status": "partial",
   "theorems": [
    "Dld.C96_no_crash_violated",
    "Dld.C96_no_crash_partial"
   ],
   "note": "violated: a relocation in a section that is not loaded panics; every other well-formed input within the limits links"
  },
  {
   "property": "C97",
   "status": "proved",
   "theorems": [
    "Dld.C97_exact",
    "Dld.C97_link",
    "Dld.C97_references"
   ],
   "note": "the hypotheses speak only about the calls; C97_link gives GoodLink, the hypothesis of the other theorems about links, for all digestible inputs"
  },
  {
   "property": "C98",
   "status": "proved",
   "theorems": [
    "Dld.Linker.C98_resolution",
    "Dld.Linker.C98_no_crash",
    "Dld.Linker.C98_objects",
    "Dld.Linker.C98_libraries",
    "Dld.Linker.C98_whole"
   ],
   "note": "C98_no_crash has size limits about the calls that were made; in C98_objects, C98_libraries and C98_whole (objects, archives and libraries) all hypotheses are about the files"
  },
  {
   "property": "C99",
   "status": "partial",
   "theorems": [
    "Dld.C99_tables_violated",
    "Dld.C99_tables_partial"
   ],
   "note": "violated with a zero-fill section of larger alignment; holds when the zero-fill sections of each kind stand behind those with contents"
  },
  {
   "property": "C100",
   "status": "partial",
   "theorems": [
    "Dld.C100_starts_violated",
    "Dld.C100_starts_partial"
   ],
   "note": "violated by large copied objects; holds when zero-fill sections stand last and the copies lie in writable memory"
  },
  {
   "property": "C101",
   "status": "partial",
   "theorems": [
    "Dld.C99_tables_violated",
    "Dld.C101_call_partial"
   ],
   "note": "holds when zero-fill sections stand last; otherwise the loader does not find the symbols"
  },
  {
   "property": "C102",
   "status": "partial",
   "theorems": [
    "Dld.C102_got_violated",
    "Dld.C102_got_partial"
   ],
   "note": "violated when the copy of a data object reaches into .got; holds when it does not and zero-fill sections stand last"
  },
  {
   "property": "C103",
   "status": "partial",
   "theorems": [
    "Dld.C103_data_violated",
    "Dld.C103_contents_partial"
   ],
   "note": "violated when the copy of a data object reaches into the section; sections that are not writable are always intact"
  },
  {
   "property": "C104",
   "status": "proved",
   "theorems": [
    "Dld.Cli.C104_success",
    "Dld.Cli.C104_output"
   ],
   "note": ""
  },
  {
   "property": "C105",
   "status": "proved",
   "theorems": [
    "Dld.Cli.C105_failure"
   ],
   "note": "command lines without linker scripts"
  },
  {
   "property": "C106",
   "status": "partial",
   "theorems": [
    "Dld.Cli.C106_directory_violated",
    "Dld.Cli.C106_loader_violated",
    "Dld.Cli.C106_crash_partial"
   ],
   "note": "violated by -L with a directory that does not exist and by a dynamic linker without a file name; otherwise, without scripts, only the linker itself can crash (see C98)"
  },
  {
   "property": "C107",
   "status": "partial",
   "theorems": [
    "Dld.Cli.C107_help_violated",
    "Dld.Cli.C107_help_partial"
   ],
   "note": "violated when an input does not exist"
  },
  {
   "property": "C108",
   "status": "partial",
   "theorems": [
    "Dld.Cli.C108_library_violated",
    "Dld.Cli.C108_library_partial"
   ],
   "note": "violated when a file has the plain name"
  },
  {
   "property": "C109",
   "status": "partial",
   "theorems": [
    "Dld.Cli.C109_entry_violated",
    "Dld.Linker.C109_entry_partial"
   ],
   "note": "violated without _start"
  },
  {
   "property": "C110",
   "status": "partial",
   "theorems": [
    "Dld.Linker.C110_ignored_violated",
    "Dld.Linker.C110_linked_partial"
   ],
   "note": "violated: for every link, other ELF files make no difference"
  },
  {
   "property": "C111",
   "status": "proved",
   "theorems": [
    "Dld.C111_contents"
   ],
   "note": "hypotheses are about the object files; the place in the output is computed from the sizes in the files"
  },
  {
   "property": "C112",
   "status": "proved",
   "theorems": [
    "Dld.C112_symbol",
    "Dld.C112_reference",
    "Dld.C112_section",
    "Dld.C112_relaxed_load"
   ],
   "note": "the condition on the order of mentions is needed because of C53"
  },
  {
   "property": "C113",
   "status": "proved",
   "theorems": [
    "Dld.C113_call",
    "Dld.C113_got_load"
   ],
   "note": ""
  },
  {
   "property": "C114",
   "status": "partial",
   "theorems": [
    "Dld.C114_starts_partial",
    "Dld.C114_call_partial",
    "Dld.C114_got_partial",
    "Dld.C114_contents_partial",
    "Dld.C99_tables_violated",
    "Dld.C102_got_violated",
    "Dld.C103_data_violated"
   ],
   "note": "holds when zero-fill sections stand last and no copied data object reaches into .got or the section (see C99, C102, C103 for what happens otherwise)"
  },
  {
   "property": "C115",
   "status": "partial",
   "theorems": [
    "Dld.C115_permissions_violated",
    "Dld.C115_permissions_partial"
   ],
   "note": "violated when sections of one name ask for different permissions"
  },
  {
   "property": "C116",
   "status": "proved",
   "theorems": [
    "Dld.C116_write_xor_execute"
   ],
   "note": ""
  },
  {
   "property": "C117",
   "status": "partial",
   "theorems": [
    "Dld.C117_kinds_violated",
    "Dld.C117_kinds_partial"
   ],
   "note": "violated for every link: the theorem says which kinds there are"
  },
  {
   "property": "C118",
   "status": "partial",
   "theorems": [
    "Dld.C118_constructors_violated",
    "Dld.C118_array_partial",
    "Dld.C118_entry_partial"
   ],
   "note": "violated when sections of this type have several names; holds for one name when zero-fill sections stand last and no copied data object reaches into the array"
  },
  {
   "property": "C119",
   "status": "proved",
   "theorems": [
    "Dld.Linker.C119"
   ],
   "note": "outcomes are compared up to the order in which hash tables are visited (see C66)"
  },
  {
   "property": "C120",
   "status": "proved",
   "theorems": [
    "Dld.Linker.C120"
   ],
   "note": "outcomes are compared up to the order in which hash tables are visited (see C66)"
  },
  {
   "property": "C121",
   "status": "proved",
   "theorems": [
    "Dld.C121_symbol",
    "Dld.C121_reference"
   ],
   "note": ""
  },
  {
   "property": "C122",
   "status": "partial",
   "theorems": [
    "Dld.C122_common_violated",
    "Dld.C122_common_partial"
   ],
   "note": "violated by every common symbol; its name, size, type and binding are kept"
  },
  {
   "property": "C123",
   "status": "partial",
   "theorems": [
    "Dld.C123_indirect_violated",
    "Dld.C123_library_partial"
   ],
   "note": "violated by every function of the program; functions of libraries get a slot of the procedure linkage table"
  },
  {
   "property": "C124",
   "status": "partial",
   "theorems": [
    "Dld.C124_weak_violated",
    "Dld.C124_weak_partial"
   ],
   "note": "violated by every such name; a weak symbol left undefined in an executable is one that a library offers"
  },
  {
   "property": "C125",
   "status": "partial",
   "theorems": [
    "Dld.C125_symbolless_violated",
    "Dld.C125_zero_partial"
   ],
   "note": "violated by every such relocation; holds for relocations with a symbol of value 0"
  },
  {
   "property": "C126",
   "status": "partial",
   "theorems": [
    "Dld.C126_soname_violated",
    "Dld.C126_soname_partial"
   ],
   "note": "violated when the library has another name than its file; holds when the names are the same"
  },
  {
   "property": "C127",
   "status": "proved",
   "theorems": [
    "Dld.Linker.C127_moved",
    "Dld.Linker.C127_outcomes",
    "Dld.Linker.C127_executable"
   ],
   "note": ""
  },
  {
   "property": "C128",
   "status": "proved",
   "theorems": [
    "Dld.Cli.C128_interpreter",
    "Dld.Cli.C128_needed",
    "Dld.Cli.C128_library"
   ],
   "note": "the linker set up from the command line is the one of C104"
  },
  {
   "property": "C129",
   "status": "proved",
   "theorems": [
    "Dld.Linker.C129_library",
    "Dld.Linker.C129_archive",
    "Dld.Linker.C129_again"
   ],
   "note": "outcomes are compared up to the order in which hash tables are visited (see C66)"
  },
  {
   "property": "C130",
   "status": "partial",
   "theorems": [
    "Dld.C130_offers",
    "Dld.C130_own_violated",
    "Dld.C130_copy_partial"
   ],
   "note": "violated by every link that defines symbols; what is offered are exactly the copies of library variables"
  },
  {
   "property": "C131",
   "status": "partial",
   "theorems": [
    "Dld.C131_symbol_violated",
    "Dld.C131_reference_violated",
    "Dld.C131_same_partial"
   ],
   "note": "violated by every name defined in two input sections; all references lead to one place"
  },
  {
   "property": "C132",
   "status": "partial",
   "theorems": [
    "Dld.C132_zero_violated",
    "Dld.C132_section_partial",
    "Dld.C132_variable_partial"
   ],
   "note": "violated when the copy of a data object reaches into the section; holds when zero-fill sections stand last and no copy does"
  },
  {
   "property": "C133",
   "status": "partial",
   "theorems": [
    "Dld.C133_sections_violated",
    "Dld.Cli.C133_silent_partial"
   ],
   "note": "violated by every link: the options are ignored; they change nothing else either"
  },
  {
   "property": "C134",
   "status": "partial",
   "theorems": [
    "Dld.C134_strictest_violated",
    "Dld.C134_strictest_partial",
    "Dld.C134_every_partial",
    "Dld.C134_hidden_violated"
   ],
   "note": "violated by every link with a stricter mention elsewhere and by every call of a hidden function of a library; the visibility is that of the first strongest mention"
  },
  {
   "property": "C135",
   "status": "partial",
   "theorems": [
    "Dld.Linker.C135_one_definition_violated",
    "Dld.Linker.C135_one_definition_partial",
    "Dld.Linker.C135_objects_partial"
   ],
   "note": "violated behind a mention with binding 10; holds for names with local, global and weak mentions"
  },
  {
   "property": "C136",
   "status": "partial",
   "theorems": [
    "Dld.Linker.C136_success",
    "Dld.Linker.C136_failure_violated",
    "Dld.Linker.C136_failure_partial",
    "Dld.Linker.C136_owner_violated",
    "Dld.Linker.C136_owner_partial"
   ],
   "note": "permissions after success as claimed; violated after errors when the output was executable, and for outputs of other owners"
  },
  {
   "property": "C137",
   "status": "partial",
   "theorems": [
    "Dld.Linker.C137_first_archive_violated",
    "Dld.Linker.C137_first_archive_partial"
   ],
   "note": "violated: depends on the order of a hash set; holds for archives without common names"
  },
  {
   "property": "C138",
   "status": "partial",
   "theorems": [
    "Dld.C138_versions_violated",
    "Dld.C138_loader_violated",
    "Dld.C138_tags_partial"
   ],
   "note": "violated by every link; the theorems say which tags there are"
  },
  {
   "property": "C139",
   "status": "partial",
   "theorems": [
    "Dld.Cli.C139_message_violated",
    "Dld.Cli.C139_message_partial"
   ],
   "note": "violated for names with commas; the texts of the operating system's and the parser's errors are not modelled"
  },
  {
   "property": "C140",
   "status": "partial",
   "theorems": [
    "Dld.Linker.C140_weak_violated",
    "Dld.Linker.C140_override_violated",
    "Dld.Linker.C140_complete_partial",
    "Dld.Linker.C140_objects_partial",
    "Dld.Linker.C140_linked_partial",
    "Dld.Linker.C140_archives_partial",
    "Dld.Linker.C140_reached_partial",
    "Dld.Linker.C140_libraries_partial",
    "Dld.Linker.C140_whole_partial"
   ],
   "note": "violated: a weak absolute definition is lost when a later file refers to the name, and a global definition that overrides a weak one is taken for a duplicate if an earlier file refers to the name; proved: with one definition per globally defined name every program of objects and libraries links, where weak definitions in a section suffice; for objects alone, with libraries, with archives, and with both (C140_whole_partial), all requirements are on the contents of the files. With archives: the names in the indexes are global definitions of the members, members in an index have different contents, and what these members need is provided too; C140_reached_partial asks this only of the members the link can reach (C152). The bounds of an init or fini array that some object has may be needed as well"
  },
  {
   "property": "C141",
   "status": "partial",
   "theorems": [
    "Dld.Linker.C141_order_violated",
    "Dld.Linker.C141_order_partial",
    "Dld.Linker.C141_libraries_partial"
   ],
   "note": "violated: with a reference, a weak and a global definition the link fails or succeeds depending on the order; proved for objects, with or without libraries, that define each name once, globally or in a section, and that may refer to the bounds of the init and fini arrays. With archives see C157"
  },
  {
   "property": "C142",
   "status": "partial",
   "theorems": [
    "Dld.Linker.C142_inputs_violated",
    "Dld.Cli.C142_run_violated",
    "Dld.Cli.C142_inputs_partial"
   ],
   "note": "Violated when the output is one of the inputs: Writer::new creates (truncates) the output before any input is read. C142_inputs_violated is universal: every link whose output is one of its objects fails or crashes and leaves that object empty. C142_run_violated is a complete run. C142_inputs_partial: no file but the output changes. Missing: inputs that are the output. Two spellings of one path are different files in the model."
  },
  {
   "property": "C143",
   "status": "partial",
   "theorems": [
    "Dld.C143_comdat_violated",
    "Dld.C143_marked_violated",
    "Dld.C143_marked_partial"
   ],
   "note": "Violated, universally: the sections of all COMDAT groups of one signature are in the output, one behind the other, and so are group tables and sections marked SHF_EXCLUDE. C143_marked_partial: symbol, string, relocation and dynamic tables of the files are left out; every section of the output that is not the linker's own has the name of a copied section and is exactly as long as these together."
  },
  {
   "property": "C144",
   "status": "partial",
   "theorems": [
    "Dld.Linker.C144_machine_violated",
    "Dld.C144_machine_partial"
   ],
   "note": "Violated by every set of objects that links (C140) with an object for another machine among them: the link succeeds and the sections of that object are in the output. C144_machine_partial: every output says in its header that it is for x86-64, 64 bit, least significant byte first."
  },
  {
   "property": "C145",
   "status": "partial",
   "theorems": [
    "Dld.Linker.C145_library_violated",
    "Dld.Linker.C145_reported_partial"
   ],
   "note": "Violated by every damaged library in the first place whose objects link on their own: Elf::parse(...).unwrap() panics. C145_reported_partial: no link with a missing or damaged input succeeds (no requirements on the files), and if the files that can be read are complete, the link ends with an error that is justified by the input it names (C83). Missing: damaged libraries."
  },
  {
   "property": "C146",
   "status": "proved",
   "theorems": [
    "Dld.Linker.C146_previous",
    "Dld.Linker.C146_again"
   ],
   "note": "Also when the output is one of the inputs, which then reads as empty in both cases. For different hash orders see C66, for outputs of other owners C136."
  },
  {
   "property": "C147",
   "status": "partial",
   "theorems": [
    "Dld.C147_shared_violated",
    "Dld.C147_mixed_violated",
    "Dld.C147_visible_violated",
    "Dld.C147_private_partial"
   ],
   "note": "Violated by every link in which two files refer to one name, with two concrete links. Holds for private symbols whose name no other symbol has, also if a library has it."
  },
  {
   "property": "C148",
   "status": "proved",
   "theorems": [
    "Dld.C148_padding"
   ],
   "note": "for every file a link produces"
  },
  {
   "property": "C149",
   "status": "proved",
   "theorems": [
    "Dld.Cli.C149_archive",
    "Dld.Cli.C149_other_name"
   ],
   "note": "whole runs of the program, over the command line; for libraries the same is part of C129"
  },
  {
   "property": "C150",
   "status": "partial",
   "theorems": [
    "Dld.Cli.C150_again_violated",
    "Dld.Cli.C150_inputs_partial",
    "Dld.Cli.C150_again_partial"
   ],
   "note": "violated when the output is a path that is tried for an input: -o f with -lf links once and fails the second time; proved when the output is none of the paths that are tried, and a frame theorem for runs in two file systems that agree on these paths"
  },
  {
   "property": "C151",
   "status": "proved",
   "theorems": [
    "Dld.Linker.C151_layout",
    "Dld.Linker.C151_failure",
    "Dld.Linker.C151_tables"
   ],
   "note": "Layout: the second link crashes or gives a file of the same length whose differences lie inside sections. Failure: same message unless a crash. Tables: headers and symbols by name are equal when both succeed. The order of equal sections is assumed not to depend on their contents (the comparison reads headers only). The examples show two different files and the crash."
  },
  {
   "property": "C152",
   "status": "proved",
   "theorems": [
    "Dld.Linker.C152_unasked"
   ],
   "note": "equality of the outcomes, including errors and crashes and links that do not end. The example adds a second _start and a damaged member to an archive"
  },
  {
   "property": "C153",
   "status": "proved",
   "theorems": [
    "Dld.Cli.C153_build"
   ],
   "note": "together with C140, which gives the requirement on the link from the contents of the files"
  },
  {
   "property": "C154",
   "status": "proved",
   "theorems": [
    "Dld.Linker.C154_interface"
   ],
   "note": "the names in both versions of the library can be read"
  },
  {
   "property": "C155",
   "status": "partial",
   "theorems": [
    "Dld.Linker.C155_full_violated",
    "Dld.Linker.C155_written_partial",
    "Dld.Linker.C155_room"
   ],
   "note": "violated whenever the output does not fit: the linker crashes, and the truncated file can be run if an earlier output was there; proved: success only with the whole executable, what is left is a beginning of it, no other file changes, a new output is executable only if complete"
  },
  {
   "property": "C156",
   "status": "proved",
   "theorems": [
    "Dld.Linker.C156_more",
    "Dld.Linker.C156_archives"
   ],
   "note": "C156_more is for objects and libraries, C156_archives for objects, archives and libraries. All hypotheses are about the contents of the files that are reached; the examples add a library in front of the one that is needed, and a library that has a function taken from an archive so far, for every iteration order."
  },
  {
   "property": "C157",
   "status": "proved",
   "theorems": [
    "Dld.Linker.C157_shuffled"
   ],
   "note": "Only the files that are reached (C152) have to be well-formed; the example swaps two archives of which the second is only needed by the first, for every iteration order."
  },
  {
   "property": "C158",
   "status": "proved",
   "theorems": [
    "Dld.Linker.C158_override"
   ],
   "note": "Equality of the outcomes, including errors and crashes and links that do not end. In the example an object has its own g and the archive has another one."
  },
  {
   "property": "C159",
   "status": "proved",
   "theorems": [
    "Dld.Linker.C159_archived"
   ],
   "note": "All hypotheses are about the first command line and the archive, whose index has exactly the global definitions of the members. In the example the second object of a program with a library is put into an archive, for every iteration order."
  },
  {
   "property": "C160",
   "status": "proved",
   "theorems": [
    "Dld.Linker.C160_size",
    "Dld.Linker.C160_room"
   ],
   "note": "The hypotheses are about the contents of the files, and for the second theorem about the file system. In the examples a program with an archive and a library needs less than 128 KiB, and is linked on a file system with that much room."
  },
  {
   "property": "C161",
   "status": "proved",
   "theorems": [
    "Dld.C161_extent"
   ],
   "note": "Bounds from both sides, about the headers as they are read from the file. Which type a merged section has is that of its first input section (C50)."
  }
 ]
}