{"id": "C01", "title": "SysV ELF hash matches the gABI", "statement": "For every symbol name the SysV hash stored for it equals the hash the System V gABI defines (the PJW recurrence on the name's bytes), and it always fits in 28 bits.", "quantifier": "every finite byte string", "why_tests_cant": "Tests sample a handful of names; the wrap-around and the high-nibble fold only show on long names.", "anchors": ["src/name.rs: Name::elf_hash"]}
{"id": "C02", "title": "GNU hash matches the published recurrence", "statement": "For every symbol name the GNU hash equals the value sum(5381*33^n + b_i*33^(n-1-i)) modulo 2^32.", "quantifier": "every finite byte string", "why_tests_cant": "Wrap-around depends on the length and contents of the name.", "anchors": ["src/name.rs: Name::elf_gnu_hash"]}
{"id": "C03", "title": "String table interning is stable and injective", "statement": "Asking a string table for a name that was requested before returns the same offset and index as the first time and reports it as not new; two different names never get the same offset or the same index. This holds however many names are interned in between.", "quantifier": "every history of name requests", "why_tests_cant": "The claim is about all histories of unbounded length.", "anchors": ["src/elf/string_table.rs: StringTable::get_or_create, StringTable::get"]}
{"id": "C04", "title": "String table image: every returned offset reads back the name", "statement": "In the bytes written for a string table, reading the NUL-terminated string at the offset handed out for a name yields exactly that name, whatever order the hash map iterates in. Names contain no NUL byte (they come from NUL-terminated strings).", "quantifier": "every history of NUL-free names and every hash-map iteration order", "why_tests_cant": "Hash-map order is randomised per process and histories are unbounded.", "anchors": ["src/elf/string_table.rs: StringTable::chunk, sorted_names", "src/serialize.rs: Serialize for Name"]}
{"id": "C05", "title": "Offset to name lookup inverts interning", "statement": "Looking a name up by the offset handed out for it returns that name, for every iteration order of the underlying hash map; an offset never handed out yields nothing.", "quantifier": "every history of name requests and every hash-map iteration order", "why_tests_cant": "The lookup is a linear scan of a randomly ordered map; uniqueness over all histories is what makes it a function.", "anchors": ["src/elf/string_table.rs: StringTable::name"]}
{"id": "C06", "title": "String table image length equals the recorded section size", "statement": "The number of bytes emitted for a string table equals the total length recorded in its section header, after any history.", "quantifier": "every history of name requests", "why_tests_cant": "A mismatch shifts every later section of the file; histories are unbounded.", "anchors": ["src/elf/string_table.rs: StringTable::total_len, chunk, Synthesized::expand"]}
{"id": "C07", "title": "Two strong definitions of one name are rejected", "statement": "If a sequence of symbols fed to the symbol table contains two global, defined, non-section symbols of the same name, adding fails, no matter what other symbols (undefined, weak, local, other names) come before, between or after them.", "quantifier": "every sequence of symbol additions whose mentions of the name have binding local, weak or global", "why_tests_cant": "Needs all interleavings with references and weak or local symbols.", "anchors": ["src/elf/symbol_table.rs: SymbolTable::add_symbol"]}
{"id": "C08", "title": "No spurious duplicate-definition errors", "statement": "Adding symbols fails only if the sequence really contains two strong (global, defined) non-section symbols of the same name. (Violated: a global undefined reference, then a weak or local definition, then one strong definition is reported as a duplicate.)", "quantifier": "every sequence of symbol additions", "why_tests_cant": "Absence of errors over all histories.", "anchors": ["src/elf/symbol_table.rs: SymbolTable::add_symbol"]}
{"id": "C09", "title": "Resolved binding is the strongest binding seen", "statement": "After any successful sequence of additions the binding of a named symbol is the strongest (global over weak over local) of all bindings it was added with, independent of the order of additions.", "quantifier": "every sequence of additions with local/weak/global bindings", "why_tests_cant": "Order independence over all permutations.", "anchors": ["src/elf/symbol_table.rs: SymbolTable::add_symbol", "src/symbol.rs: Symbol::higher_bind_than"]}
{"id": "C10", "title": "A symbol with a definition stays defined", "statement": "If any input defines a symbol, the symbol is defined in the resolved table. (The code satisfies this for strong definitions; a weak definition followed by a strong undefined reference is lost.)", "quantifier": "every sequence of symbol additions", "why_tests_cant": "Depends on arrival order of references and definitions.", "anchors": ["src/elf/symbol_table.rs: SymbolTable::add_symbol"]}
{"id": "C11", "title": "A resolved symbol carries the value, size and type of its definition", "statement": "When a strong definition of a symbol is among the inputs, the resolved entry has the value, size and type of that definition, whatever the order in which references and the definition arrive.", "quantifier": "every sequence of symbol additions", "why_tests_cant": "Order dependent: a test with the definition first does not exercise the reference-first path.", "anchors": ["src/elf/symbol_table.rs: SymbolTable::add_symbol (lines 115-123)"]}
{"id": "C12", "title": "Local symbols of different objects stay separate", "statement": "Two local symbols with the same name coming from different objects are separate entities: each keeps its own value and neither is visible to the other object.", "quantifier": "every pair of objects with same-named local symbols", "why_tests_cant": "Requires reasoning about every name collision across inputs.", "anchors": ["src/elf/symbol_table.rs: SymbolTable::add_symbol", "src/lib.rs: ElfObject::process_symbols"]}
{"id": "C13", "title": "Symbol table sh_info is the index of the first non-local symbol", "statement": "The sh_info written for .symtab/.dynsym equals the number of local symbols in the table, i.e. one more than the index of the last local symbol.", "quantifier": "every sequence of symbol additions", "why_tests_cant": "Counter maintained incrementally over unbounded histories.", "anchors": ["src/elf/symbol_table.rs: SymbolTable::num_locals, expand"]}
{"id": "C14", "title": "Symbol table order: locals first, complete, duplicate free", "statement": "The emitted symbol table lists every named symbol exactly once, all local symbols before all others, and the null symbol at index 0, whatever order the hash map iterates in. (The last part is violated if a local symbol's name has GNU hash 0, e.g. glidphc.)", "quantifier": "every table content and every hash-map iteration order", "why_tests_cant": "Hash-map order is random per run.", "anchors": ["src/elf/symbol_table.rs: SymbolTable::sorted, sort_symbols_func"]}
{"id": "C15", "title": "Symbol table image decodes to the table", "statement": "Decoding the emitted symbol table bytes as consecutive 24-byte ELF64 symbols yields exactly the symbols of the table in their order, and the byte length equals the recorded section size.", "quantifier": "every table content whose fields fit their widths", "why_tests_cant": "Round-trip for all field values.", "anchors": ["src/elf/symbol_table.rs: SymbolTable::chunk, total_len", "src/serialize.rs: Serialize for Sym"]}
{"id": "C16", "title": "SysV hash table finds every dynamic symbol", "statement": "For every symbol list (index 0 being the null symbol) the gABI lookup procedure run on the emitted SysV hash table, starting from the bucket of a symbol's hash, reaches that symbol's index and terminates; every symbol index visited belongs to the same bucket.", "quantifier": "every list of symbols", "why_tests_cant": "Chains are built by pointer walking; completeness and termination need induction over all lists.", "anchors": ["src/elf/symbol_table.rs: HashTable::add_symbols"]}
{"id": "C17", "title": "GNU hash table finds every dynamic symbol", "statement": "The dynamic loader's GNU-hash lookup run on the emitted table finds every dynamic symbol (index >= 1). (The code orders symbols by hash rather than by bucket; this holds with a single bucket, i.e. fewer than eight symbols, and fails beyond.)", "quantifier": "every hash-sorted list of symbols", "why_tests_cant": "Failure needs at least eight symbols whose hashes interleave across buckets.", "anchors": ["src/elf/symbol_table.rs: GnuHashTable::add_symbols, sort_symbols_func"]}
{"id": "C18", "title": "GNU hash bloom filter has no false negatives", "statement": "For every dynamic symbol (index >= 1) the bloom test the dynamic loader performs on the emitted filter passes.", "quantifier": "every list of fewer than 2^28 symbols", "why_tests_cant": "Bits are OR-ed in for all symbols; needs all lists and hash values.", "anchors": ["src/elf/symbol_table.rs: calculate_bloom, GnuHashTable::add_symbols"]}
{"id": "C19", "title": "Hash table images have the declared layout", "statement": "The emitted .hash and .gnu.hash bytes decode to the header counts, bloom words, buckets and chains of the table and their length equals the section size; every bucket and SysV chain entry is a valid symbol index.", "quantifier": "every list of symbols", "why_tests_cant": "Unbounded number of symbols.", "anchors": ["src/serialize.rs: Serialize for HashTable, GnuHashTable", "src/elf/symbol_table.rs: size, expand"]}
{"id": "C20", "title": "PLT and .got.plt slots: one per symbol, dense, aligned with each other", "statement": "Over any sequence of relocations, each dynamically resolved symbol called through the PLT gets exactly one PLT index and one .got.plt offset; the indices are 0..n-1 without gaps, different symbols never share, and the .got.plt offset is always 8*(index+3).", "quantifier": "every history of calls followed by the relocation scan, every iteration order; the reading from the file for well-formed inputs", "why_tests_cant": "Slots are allocated on first use over unbounded relocation sequences.", "anchors": ["src/elf.rs: Writer::scan_relocations", "src/elf/plt.rs: Plt::insert"]}
{"id": "C21", "title": "GOT slots of different symbols never overlap", "statement": "Over any sequence of relocations the GOT slots handed to different symbols are disjoint, 8-byte aligned, lie inside .got, and never use the reserved slot 0.", "quantifier": "every history of calls followed by the relocation scan, every iteration order; the reading from the file for well-formed inputs", "why_tests_cant": "Allocation over unbounded histories.", "anchors": ["src/elf.rs: Writer::scan_relocations, resize_got_section"]}
{"id": "C22", "title": "A TLSGD relocation owns two consecutive GOT slots", "statement": "A thread-local symbol referenced by a TLSGD relocation owns two consecutive GOT slots that no other symbol uses. (Violated when the symbol's first GOT relocation is of another kind.)", "quantifier": "every sequence of relocations", "why_tests_cant": "Depends on the order of relocation kinds for one symbol.", "anchors": ["src/elf.rs: Writer::scan_relocations (lines 766-781)"]}
{"id": "C23", "title": "PLT code jumps through the right slot", "statement": "Executing a PLT entry of the output as x86-64 code jumps through the .got.plt slot of its own symbol; the lazy path pushes the index of that symbol's own JUMP_SLOT relocation and jumps to PLT0, which pushes .got.plt[1] and jumps through .got.plt[2]; each slot initially points at the push instruction of its own entry.", "quantifier": "every complete link of well-formed inputs (no input section has a name of the linker's own sections or flags exactly SHF_WRITE; section data is as long as its header says; sections of one name agree on being zero-fill; the numbers of the output fit their fields), every iteration order", "why_tests_cant": "All slot counts and addresses.", "anchors": ["src/elf.rs: Writer::patch_plt_and_got_plt", "src/elf/plt.rs: Plt::expand"]}
{"id": "C24", "title": "JUMP_SLOT relocation index agrees with the PLT push operand", "statement": "For every PLT symbol the relocation at the position pushed by its PLT entry is a JUMP_SLOT relocation whose offset is that symbol's .got.plt slot and whose symbol index is that symbol's index in the emitted .dynsym.", "quantifier": "every complete link of well-formed inputs (no input section has a name of the linker's own sections or flags exactly SHF_WRITE; section data is as long as its header says; sections of one name agree on being zero-fill; the numbers of the output fit their fields), every iteration order", "why_tests_cant": "Order of relocations follows random hash-map iteration.", "anchors": ["src/elf.rs: Writer::assign_section_addresses (lines 831-867)", "src/elf.rs: compute_tables"]}
{"id": "C25", "title": "GOT data relocation: each dynamic GOT symbol has a GLOB_DAT for its slot", "statement": "Every dynamically resolved symbol that owns a GOT slot has exactly one GLOB_DAT relocation, pointing at its slot and naming its own dynamic symbol index.", "quantifier": "every complete link of well-formed inputs (no input section has a name of the linker's own sections or flags exactly SHF_WRITE; section data is as long as its header says; sections of one name agree on being zero-fill; the numbers of the output fit their fields), every iteration order", "why_tests_cant": "All symbol sets, random order.", "anchors": ["src/elf.rs: Writer::assign_section_addresses", "src/elf.rs: Writer::compute_tables"]}
{"id": "C26", "title": "GOT slot of a locally defined symbol holds its address", "statement": "At run time the GOT slot of a symbol defined inside the executable holds that symbol's address. (Violated: the GOT is emitted as zeros and no relocation fills it.)", "quantifier": "every link", "why_tests_cant": "Needs knowledge of every way the GOT bytes can be written.", "anchors": ["src/elf.rs: Writer::resize_got_section, handle_relocations"]}
{"id": "C27", "title": "Calls to symbols inside the executable bypass the PLT", "statement": "A PLT32 relocation against a symbol that no shared library provides is turned into a PC32 relocation with the same offset, addend and symbol; all other relocations are left untouched by the scan.", "quantifier": "every relocation list", "why_tests_cant": "All relocation types and symbol states.", "anchors": ["src/elf.rs: Writer::scan_relocations (lines 796-800)"]}
{"id": "C28", "title": "COPY relocations get disjoint space in .copyrel", "statement": "Every data object imported from a shared library gets its own byte range of its size in .copyrel; ranges are disjoint and lie within the final section size, and a COPY relocation targets the start of the range.", "quantifier": "every complete link of well-formed inputs (no input section has a name of the linker's own sections or flags exactly SHF_WRITE; section data is as long as its header says; sections of one name agree on being zero-fill; the numbers of the output fit their fields), every iteration order", "why_tests_cant": "All sizes and orders.", "anchors": ["src/elf/copy_rel.rs: CopyRel::insert", "src/elf.rs: lines 851-862"]}
{"id": "C29", "title": "Relocations compute the psABI value", "statement": "For each of the relocation types 64, 32, 32S, PC32, PLT32 and the GOT-relative ones, a successfully applied relocation stores at its offset the value the x86-64 psABI prescribes (S+A, S+A-P, L+A-P, G+GOT+A-P) in little endian, sign included (for 32S when the value fits its field, see C31).", "quantifier": "every symbol value, addend, place and buffer", "why_tests_cant": "Full 64-bit ranges.", "anchors": ["src/elf/chunk.rs: apply_relocation"]}
{"id": "C30", "title": "A relocation changes only its own field", "statement": "Applying a relocation never changes the length of the section data nor any byte outside the field it patches (and, for relaxations, the instruction bytes directly before it).", "quantifier": "every relocation and buffer", "why_tests_cant": "All offsets and buffers.", "anchors": ["src/elf/chunk.rs: apply_relocation"]}
{"id": "C31", "title": "Relocation overflow is never silent", "statement": "A 32-bit relocation whose value does not fit in the field is reported (the link aborts) rather than truncated. (Violated for R_X86_64_32S, which truncates.)", "quantifier": "every value outside the 32-bit range", "why_tests_cant": "Boundary values over 64-bit ranges.", "anchors": ["src/elf/chunk.rs: apply_relocation"]}
{"id": "C32", "title": "GOT load relaxation preserves the loaded address", "statement": "Rewriting `mov foo@GOTPCREL(%rip), %reg` to `lea foo(%rip), %reg` keeps the destination register and makes the register receive the address of foo.", "quantifier": "every register encoding, symbol address and place", "why_tests_cant": "All addresses and encodings.", "anchors": ["src/elf/chunk.rs: R_X86_64_REX_GOTPCRELX arm"]}
{"id": "C33", "title": "Indirect call/jump relaxation preserves the target", "statement": "Rewriting `call *foo@GOTPCREL(%rip)` / `jmp *foo@GOTPCREL(%rip)` to a direct call/jump transfers control to foo. (Violated: the displacement is off by one and control goes to foo-1.)", "quantifier": "every symbol address and place", "why_tests_cant": "The instruction end moves by one byte; any test that only checks bytes misses it.", "anchors": ["src/elf/chunk.rs: R_X86_64_GOTPCRELX arm"]}
{"id": "C34", "title": "Relocation types outside the supported set never corrupt data", "statement": "The 8/16-bit relocations that do not conform to the ABI are rejected with an error when added; any other unsupported type aborts the link instead of producing output.", "quantifier": "every relocation type number", "why_tests_cant": "All 2^32 type numbers.", "anchors": ["src/elf.rs: Writer::add_relocation", "src/elf/chunk.rs: apply_relocation"]}
{"id": "C35", "title": "Relocations with disjoint fields commute", "statement": "Applying the relocations of a chunk gives the same bytes in any order when their patched fields do not overlap, and each field holds the value of its own relocation.", "quantifier": "every list of relocations with pairwise disjoint fields", "why_tests_cant": "All permutations.", "anchors": ["src/elf/chunk.rs: Chunk::apply_relocations"]}
{"id": "C36", "title": "Section ordering is a consistent total preorder", "statement": "The comparison used to sort sections is total, transitive and antisymmetric up to equivalence, so the sort is well defined; after sorting, sections with equal flags are contiguous, flag-less sections come last and within a flag group alignments are non-increasing.", "quantifier": "every list of sections and every unstable sort result", "why_tests_cant": "Inconsistent comparators make the sort panic or misplace sections only for unlucky inputs.", "anchors": ["src/elf.rs: section_cmp, Writer::sort_sections"]}
{"id": "C37", "title": "Program header count is predicted exactly", "statement": "The number of program headers reserved in the file before layout equals the number finally emitted and recorded in e_phnum, and the first loaded section starts right behind the headers.", "quantifier": "every history of calls with fewer than 65536/56 segments; no input section of type SHT_DYNAMIC; no input section has flags exactly SHF_WRITE", "why_tests_cant": "All sequences of flag changes.", "anchors": ["src/elf.rs: Writer::count_program_headers, generate_program_headers, compute_sections"]}
{"id": "C38", "title": "Allocated sections do not overlap in memory", "statement": "The address ranges [sh_addr, sh_addr+sh_size) of different allocated sections of the output are disjoint. (Holds for the sizes known at layout time; violated by .copyrel, whose size is only set afterwards.)", "quantifier": "every list of sections", "why_tests_cant": "All section counts, sizes, flags.", "anchors": ["src/elf.rs: Writer::generate_program_headers", "src/elf/copy_rel.rs: expand", "src/elf/section.rs: finalize"]}
{"id": "C39", "title": "File ranges of sections do not overlap and match their place in the file", "statement": "In the output file the bytes of each section lie exactly at [sh_offset, sh_offset+size on disk); ranges of different sections, the headers and the section header table are disjoint.", "quantifier": "every complete link of well-formed inputs (no input section has a name of the linker's own sections or flags exactly SHF_WRITE; section data is as long as its header says; sections of one name agree on being zero-fill; the numbers of the output fit their fields), every iteration order", "why_tests_cant": "All section counts and sizes; padding is computed incrementally.", "anchors": ["src/elf.rs: Writer::write_to_disk, generate_program_headers"]}
{"id": "C40", "title": "LOAD segments are page aligned, ascending and disjoint", "statement": "Every PT_LOAD segment has p_vaddr and p_offset multiples of the page size, segments appear in ascending address order and their memory ranges are disjoint, as the ELF loader requires.", "quantifier": "every complete link; no input section has flags exactly SHF_WRITE", "why_tests_cant": "All layouts.", "anchors": ["src/elf.rs: get_load_program_header, generate_program_headers"]}
{"id": "C41", "title": "Every allocated section is covered by a LOAD segment with its permissions", "statement": "Every allocated section lies inside the memory range of one PT_LOAD segment whose R/W/X flags are exactly those of the section's SHF_WRITE/SHF_EXECINSTR flags; no section without SHF_WRITE is writable, none without SHF_EXECINSTR is executable.", "quantifier": "every list of sections", "why_tests_cant": "All flag combinations and groupings.", "anchors": ["src/elf.rs: get_load_program_header, generate_program_headers"]}
{"id": "C42", "title": "The loader maps each section's bytes at its address", "statement": "For every allocated section with file content, sh_addr - p_vaddr = sh_offset - p_offset for its segment, so the bytes of the file appear at the section's address. (Holds when no zero-fill section precedes it in its segment; violated otherwise.)", "quantifier": "every list of sections", "why_tests_cant": "Depends on the sort position of zero-fill sections.", "anchors": ["src/elf.rs: generate_program_headers"]}
{"id": "C43", "title": "Sections and input chunks respect their alignment", "statement": "The address of every allocated section is a multiple of its sh_addralign, and every input section contributed to it starts at a multiple of its own alignment. (Violated: no padding is inserted except at page boundaries.)", "quantifier": "every list of sections", "why_tests_cant": "All sizes and alignments.", "anchors": ["src/elf.rs: generate_program_headers", "src/elf/section.rs: set_address"]}
{"id": "C44", "title": "PT_INTERP and PT_DYNAMIC describe their sections", "statement": "The INTERP and DYNAMIC program headers carry exactly the address, file offset and size of .interp and .dynamic, appear before every PT_LOAD and occur exactly once.", "quantifier": "every list of sections", "why_tests_cant": "The address is sampled before the section is placed; correct only when the section is not the first of its segment.", "anchors": ["src/elf.rs: generate_program_headers (old_p_vaddr), p_type"]}
{"id": "C45", "title": "PT_PHDR describes the program header table and is covered by the first LOAD", "statement": "The first program header is PT_PHDR, gives offset 64 and size 56*e_phnum, its address is the load base plus 64, and the first PT_LOAD maps file offset 0 at the load base and covers the whole table.", "quantifier": "every complete link; no input section has flags exactly SHF_WRITE", "why_tests_cant": "All header counts.", "anchors": ["src/elf.rs: compute_sections, generate_program_headers"]}
{"id": "C46", "title": "ELF header round trip", "statement": "Decoding the first 64 bytes of the output by the ELF64 layout gives back the header: magic, class, machine, entry, counts and offsets.", "quantifier": "every header value", "why_tests_cant": "All field values.", "anchors": ["src/serialize.rs: Serialize for Header"]}
{"id": "C47", "title": "Program, section, relocation and dynamic entries round trip", "statement": "Decoding the bytes emitted for a program header, section header, RELA entry or dynamic entry by the ELF64 layout gives back the entry, and the number of bytes equals the advertised entry size.", "quantifier": "every field value in range", "why_tests_cant": "All field values.", "anchors": ["src/serialize.rs"]}
{"id": "C48", "title": "Section header table location and count", "statement": "e_shoff points at the section header table, which holds e_shnum entries of 64 bytes, entry 0 being the null section, and e_shstrndx is the index of .shstrtab.", "quantifier": "every complete link of well-formed inputs (no input section has a name of the linker's own sections or flags exactly SHF_WRITE; section data is as long as its header says; sections of one name agree on being zero-fill; the numbers of the output fit their fields), every iteration order", "why_tests_cant": "All section counts.", "anchors": ["src/elf.rs: compute_sections, write_to_disk"]}
{"id": "C49", "title": "Section names resolve", "statement": "For every section header of the output, reading the string at sh_name in the emitted .shstrtab yields the section's name; every pushed section name is present exactly once.", "quantifier": "every complete link of well-formed inputs (no input section has a name of the linker's own sections or flags exactly SHF_WRITE; section data is as long as its header says; sections of one name agree on being zero-fill; the numbers of the output fit their fields) with NUL-free section names, every iteration order", "why_tests_cant": "All histories.", "anchors": ["src/elf.rs: Writer::add_section", "src/elf/string_table.rs"]}
{"id": "C50", "title": "Input sections are merged by name, complete and in order", "statement": "The output section of a given name is the concatenation of the data of all pushed sections of that name in push order, its size is the sum of their sizes and its alignment their maximum. (Violated for the names .hash, .gnu.hash and .copyrel, which are merged into a different section.)", "quantifier": "every history of section pushes", "why_tests_cant": "All histories; index bookkeeping across two tables.", "anchors": ["src/elf.rs: Writer::add_section, Writer::new"]}
{"id": "C51", "title": "Dynamic section is complete, sized exactly and terminated", "statement": "The .dynamic section's recorded size equals its emitted bytes; it ends with exactly one DT_NULL; the DT_ address tags hold the address of the section they describe and size tags its size.", "quantifier": "every complete link of well-formed inputs (no input section has a name of the linker's own sections or flags exactly SHF_WRITE; section data is as long as its header says; sections of one name agree on being zero-fill; the numbers of the output fit their fields), none of the input sections has a type of the dynamic linking tables", "why_tests_cant": "Size is predicted by one function and entries are produced by another.", "anchors": ["src/elf.rs: dyn_entries, try_add_dyn_entries, add_dyn_entries"]}
{"id": "C52", "title": "DT_NEEDED entries are unique and lead with the interpreter", "statement": "The first dynamic entry is DT_NEEDED for the dynamic linker's file name; DT_NEEDED entries name pairwise different libraries, and a library gets an entry when it is first reported as needed (unless its file name was already interned as a symbol name).", "quantifier": "every complete link of well-formed inputs (no input section has a name of the linker's own sections or flags exactly SHF_WRITE; section data is as long as its header says; sections of one name agree on being zero-fill; the numbers of the output fit their fields) with NUL-free library names", "why_tests_cant": "All histories.", "anchors": ["src/elf.rs: Writer::add_needed, Writer::new"]}
{"id": "C53", "title": "Symbol address is section chunk address plus offset", "statement": "A symbol defined once in an input section gets as final value the address of that input section in the output plus its original offset, and st_shndx the index of the output section. (Violated when the definition follows an undefined mention of equal binding: the offset is lost. It holds for definitions that decide the symbol.)", "quantifier": "every history", "why_tests_cant": "All layouts and symbols.", "anchors": ["src/elf/section.rs: Section::patch_symbol_values", "src/elf.rs: add_symbol_inner"]}
{"id": "C54", "title": "Symbols are relocated exactly once", "statement": "The final value of a symbol is relocated by exactly one section base. (Violated when two inputs contribute definitions of the same weak or local name, or a weak definition is overridden: the bases of both sections are added.)", "quantifier": "every history", "why_tests_cant": "Depends on combinations of definitions.", "anchors": ["src/elf/section.rs: patch_symbol_values", "src/elf.rs: add_symbol_inner (lines 448-452)"]}
{"id": "C55", "title": "Zero-fill sections of different objects do not alias", "statement": "Symbols in the .bss of different objects get different addresses. (Violated: all zero-fill contributions share chunk 0 and are based at the section start.)", "quantifier": "every pair of objects with .bss symbols", "why_tests_cant": "Needs two objects with .bss.", "anchors": ["src/elf.rs: Writer::add_section (lines 411-415)", "src/elf/section.rs: patch_symbol_values"]}
{"id": "C56", "title": "init/fini array bounds", "statement": "__init_array_start/__fini_array_start resolve to the start of the output array section and __init_array_end/__fini_array_end to its end. (Violated for the end symbols when more than one input contributes to the array.)", "quantifier": "every history", "why_tests_cant": "Depends on the number of contributing objects.", "anchors": ["src/elf.rs: Writer::handle_special_symbols"]}
{"id": "C57", "title": "Entry point", "statement": "The entry point recorded in the header is the final address of _start when such a symbol was added.", "quantifier": "every complete link of well-formed inputs (no input section has a name of the linker's own sections or flags exactly SHF_WRITE; section data is as long as its header says; sections of one name agree on being zero-fill; the numbers of the output fit their fields)", "why_tests_cant": "All layouts.", "anchors": ["src/elf.rs: compute_sections (lines 930-935)"]}
{"id": "C58", "title": "_GLOBAL_OFFSET_TABLE_ is the address of .got.plt", "statement": "If any input mentions _GLOBAL_OFFSET_TABLE_ and no input defines it in a section of its own, it resolves to the address of .got.plt and belongs to that section.", "quantifier": "every complete link of well-formed inputs (no input section has a name of the linker's own sections or flags exactly SHF_WRITE; section data is as long as its header says; sections of one name agree on being zero-fill; the numbers of the output fit their fields)", "why_tests_cant": "All layouts.", "anchors": ["src/elf.rs: Writer::handle_special_symbols"]}
{"id": "C59", "title": "A successful link leaves nothing undefined", "statement": "If linking succeeds, every global or weak symbol of the output that is still undefined was provided by a shared library; otherwise an error listing all unresolved names is returned and no executable is written.", "quantifier": "every set of objects, archives and libraries, every iteration order", "why_tests_cant": "All input sets.", "anchors": ["src/lib.rs: Linker::link", "src/elf.rs: Writer::undefined_symbols"]}
{"id": "C60", "title": "Resolution loop terminates", "statement": "The library/archive resolution loop terminates for every set of inputs whose archive indexes are truthful.", "quantifier": "every set of objects, archives and libraries, every iteration order", "why_tests_cant": "Termination over all inputs.", "anchors": ["src/lib.rs: Linker::link (lines 250-260)"]}
{"id": "C61", "title": "Archive members are linked only when they provide a needed symbol", "statement": "An archive member is linked only if the archive index says it defines a symbol that was undefined at that moment.", "quantifier": "every set of inputs and iteration orders", "why_tests_cant": "All schedules of the hash-based sets.", "anchors": ["src/lib.rs: Linker::process_archives_containing"]}
{"id": "C62", "title": "Imported symbols are exported by a needed library", "statement": "Each symbol marked as dynamically resolved is defined by a shared library that is recorded as DT_NEEDED. (Violated: undefined entries of the library's dynamic symbol table match as well.)", "quantifier": "every set of inputs", "why_tests_cant": "All libraries' symbol tables.", "anchors": ["src/lib.rs: Linker::find_undefined_symbols_in_libs"]}
{"id": "C63", "title": "--no-as-needed records every library", "statement": "Libraries given under --no-as-needed get a DT_NEEDED entry even if no symbol is taken from them. (Violated: the flag is ignored.)", "quantifier": "every command line", "why_tests_cant": "Whole-program behaviour.", "anchors": ["src/lib.rs: find_undefined_symbols_in_libs", "src/main.rs: handle_linker_args"]}
{"id": "C64", "title": "Relocations are applied to the section the relocation section names", "statement": "Each relocation of an input relocation section is applied to the section named by that relocation section's sh_info. (Violated: the preceding section index is used.)", "quantifier": "every object", "why_tests_cant": "Depends on the object's section order.", "anchors": ["src/lib.rs: ElfObject::process_relocations (line 125)"]}
{"id": "C65", "title": "A failed link destroys the previous output", "statement": "The output file is created (truncated) before any input is read, so every failing link leaves an empty output file; no partially written executable is left behind by a reported error.", "quantifier": "every failing link", "why_tests_cant": "All error points.", "anchors": ["src/elf.rs: Writer::new", "src/lib.rs: Linker::link"]}
{"id": "C66", "title": "Output bytes do not depend on hash-map order", "statement": "Linking the same inputs twice gives the same bytes. (Violated: relocation table order follows hash-map iteration order. What holds: every order gives a file of the same length with the same headers, the same symbols, and the same bindings for the loader; without copied objects the same contents outside the tables; for object files alone whose symbols hash differently, the same bytes.)", "quantifier": "every pair of iteration orders", "why_tests_cant": "Random per process.", "anchors": ["src/elf.rs: assign_section_addresses (lines 844-867)"]}
{"id": "C67", "title": "Command line options", "statement": "Value options take the following argument, the last -o / -m / -dynamic-linker / --hash-style= wins, a value option without an argument is an error, flags do not consume arguments, and everything else is an input in order with the as-needed state current at that point.", "quantifier": "every argument list", "why_tests_cant": "Unbounded argument lists.", "anchors": ["src/main.rs: handle_linker_args"]}
{"id": "C68", "title": "--build-id optional argument", "statement": "--build-id takes the next argument exactly when it does not start with '-', and uses the default otherwise.", "quantifier": "every argument list", "why_tests_cant": "Unbounded argument lists.", "anchors": ["src/main.rs: handle_linker_args", "src/elf/options.rs: BuildId"]}
{"id": "C69", "title": "--hash-style is accepted as documented", "statement": "--hash-style STYLE selects the hash style as the help text says. (Violated: only --hash-style=STYLE is recognised; the two-argument form is taken as input files.)", "quantifier": "every argument list", "why_tests_cant": "Unbounded argument lists.", "anchors": ["src/main.rs: HELP, handle_linker_args"]}
{"id": "C70", "title": "Hash style selects the emitted tables", "statement": "sysv emits only .hash, gnu only .gnu.hash, both emits both, and the default is both.", "quantifier": "every complete link of well-formed inputs (no input section has a name of the linker's own sections or flags exactly SHF_WRITE; section data is as long as its header says; sections of one name agree on being zero-fill; the numbers of the output fit their fields), every option value", "why_tests_cant": "All histories.", "anchors": ["src/elf.rs: Writer::new", "src/elf/options.rs"]}
{"id": "C71", "title": "Input file classification", "statement": "A file is classified as archive, shared library, object or text purely by its first 18 bytes: archive magic, ELF magic with e_type = ET_DYN, ELF magic otherwise; shorter files are text.", "quantifier": "every file content", "why_tests_cant": "All byte strings.", "anchors": ["src/main.rs: file_type"]}
{"id": "C72", "title": "Library search honours -L order", "statement": "A library is taken from the first -L directory that has it. (Violated: directories are kept in a hash set.)", "quantifier": "every file system and directory list", "why_tests_cant": "Random iteration order.", "anchors": ["src/main.rs: search_for_inputs"]}
{"id": "C73", "title": "Linker script parsing terminates", "statement": "Parsing a linker script terminates for every script. (Violated: a script whose next token starts no known command loops forever.)", "quantifier": "every script text", "why_tests_cant": "Termination over all inputs.", "anchors": ["src/linker_script.rs: parse"]}
{"id": "C74", "title": "No self-deadlock on section locks", "statement": "No phase of linking acquires a section lock it already holds incompatibly, so linking cannot hang. (Violated with trace logging enabled when the .shstrtab section is written.)", "quantifier": "every history and logging setting", "why_tests_cant": "Lock order over all executions.", "anchors": ["src/elf.rs: write_to_disk (lines 958-980), handle_special_symbols, handle_relocations"]}
{"id": "C75", "title": "Layout arithmetic", "statement": "round_to returns the least multiple of the alignment that is not smaller than the value (and the value itself for alignment 0).", "quantifier": "every pair of values", "why_tests_cant": "All integers.", "anchors": ["src/elf.rs: round_to"]}
{"id": "C76", "title": "Duplicate-definition errors name a defining file", "statement": "The file named by an already-defined error is a file that defines the symbol. (Violated: it is the file of the first mention, which may only reference it.)", "quantifier": "every sequence of symbol additions that fails", "why_tests_cant": "Depends on the whole order of additions.", "anchors": ["src/elf/symbol_table.rs: SymbolTable::add_symbol", "src/elf.rs: Writer::add_symbol"]}
{"id": "C77", "title": "GOT32 relocations compute the psABI value", "statement": "A successfully applied R_X86_64_GOT32 relocation stores G + A, the offset of the symbol's slot inside the GOT plus the addend. (Violated: the code stores the GOTPCREL value G + GOT + A - P.)", "quantifier": "every symbol, address and addend", "why_tests_cant": "Arithmetic over all addresses.", "anchors": ["src/elf/chunk.rs: apply_relocation (lines 129-134)"]}
{"id": "C78", "title": "TPOFF32 relocations compute a thread pointer offset", "statement": "A successfully applied R_X86_64_TPOFF32 relocation stores the offset of the variable from the thread pointer (the end of the TLS segment). (Violated: the code stores the variable's address.)", "quantifier": "every symbol, address and addend", "why_tests_cant": "Arithmetic over all addresses.", "anchors": ["src/elf/chunk.rs: apply_relocation (lines 204-207)"]}
{"id": "C79", "title": "Linker scripts end", "statement": "Reading the linker scripts named by the command line, and the ones they name, comes to an end. (Violated by a script that names itself.)", "quantifier": "every file system, command line and iteration order", "why_tests_cant": "Termination over all inputs.", "anchors": ["src/main.rs: main (lines 49-55)"]}
{"id": "C80", "title": "No input is dropped silently", "statement": "When the linker is called, every input named on the command line or by a linker script was found and is among the files the linker is given. (Violated for inputs named by scripts: the error of the search is discarded, and the inputs behind the missing one are dropped with it.)", "quantifier": "every file system and command line", "why_tests_cant": "Needs every combination of files and scripts.", "anchors": ["src/main.rs: main (lines 49-55), search_for_inputs"]}
{"id": "C81", "title": "Well-formed linker scripts are read as written", "statement": "A script made of GROUP, AS_NEEDED and OUTPUT_FORMAT commands, white space and comments is read as the arguments it names, in order. (Violated for a GROUP word that begins with the letter A.)", "quantifier": "every script of that grammar", "why_tests_cant": "Unbounded texts.", "anchors": ["src/linker_script.rs: parse, parse_group_command, parse_as_needed_command"]}
{"id": "C82", "title": "Section references name the right section", "statement": "sh_link of every section of the output that has one is the index, in the output, of the section it refers to: .symtab refers to .strtab, .dynsym and .dynamic to .dynstr, the relocation and hash tables to .dynsym. (Violated for sections copied from inputs, such as section groups: they keep the index the input used.)", "quantifier": "every sequence of calls and every iteration order", "why_tests_cant": "Section indices depend on the sort order of all sections of the link.", "anchors": ["src/elf.rs: Writer::add_section, write_to_disk", "src/elf/section.rs: Section::finalize"]}
{"id": "C83", "title": "Errors are justified by the input they name", "statement": "Every error the linker returns is the list of unresolved symbols, which names the output, or is justified by the contents of the input file it names: that file cannot be read or parsed, has a section or symbol name outside its string table, has a global definition of a symbol that another input defines, or has a relocation type the psABI does not allow.", "quantifier": "every set of inputs, every iteration order, every failing link", "why_tests_cant": "Errors can come from any point of any link.", "anchors": ["src/lib.rs: Linker::link and everything it calls", "src/error.rs"]}
{"id": "C84", "title": "The duplicate definition error names the file of the first definition", "statement": "When a link fails because a symbol is defined twice, the file the message says it is already defined in has a definition of the symbol. (Violated: the message names the first file that mentions the symbol, with or without a definition.)", "quantifier": "every failing link", "why_tests_cant": "Depends on the order of all symbol additions.", "anchors": ["src/elf/symbol_table.rs: SymbolTable::add_symbol", "src/elf.rs: Writer::add_symbol"]}
{"id": "C85", "title": "A process sees the section contents at the section addresses", "statement": "In the memory of a new process, as the kernel makes it from the PT_LOAD headers of the output, the addresses of every allocated section hold exactly the bytes the file has for the section, and zeros if it is a zero-fill section. (Violated: a zero-fill section whose alignment is larger than that of .data or .dynamic is placed before them; they are then mapped at the wrong addresses and the zero-fill section is not zero.)", "quantifier": "every link of well-formed inputs, every allocated section, every byte", "why_tests_cant": "Quantifies over all layouts; the file has to be run, or loaded by hand, to see it.", "anchors": ["src/elf.rs: Writer::generate_program_headers, write_to_disk", "src/elf/section.rs: Section::size_on_disk"]}
{"id": "C86", "title": "The interpreter of the output is the one the options name", "statement": "The output has exactly one PT_INTERP header, and the bytes of the file that it points at are the path of the dynamic linker in the options followed by a NUL.", "quantifier": "every link of well-formed inputs, every dynamic linker path", "why_tests_cant": "The path and its place depend on options and on all sections of the link.", "anchors": ["src/elf.rs: Writer::new, Writer::generate_program_headers"]}
{"id": "C87", "title": "The dynamic linker finds the dynamic table", "statement": "The output has exactly one PT_DYNAMIC header, and a process finds the contents of .dynamic at the address it gives. (Violated with a zero-fill section of larger alignment: the header points at bytes in the middle of the table.)", "quantifier": "every link of well-formed inputs", "why_tests_cant": "Quantifies over all layouts.", "anchors": ["src/elf.rs: Writer::generate_program_headers"]}
{"id": "C88", "title": "Direct references reach their symbol", "statement": "For every relocation of an object of type R_X86_64_64, 32, 32S, PC32 or PLT32 against a symbol that no shared library provides, the bytes of the output where the relocated field of that object's section was merged hold the value that the output's symbol table gives the symbol plus the addend (for PC32 and PLT32 minus the address of the field; for 32S when that fits). When one definition of the symbol decides, this is the address of that definition in the output.", "quantifier": "every link of well-formed inputs, every relocation of every section whose relocations do not overlap, every iteration order", "why_tests_cant": "Composes merging, layout, symbol resolution and relocation over all inputs; a test sees one layout.", "anchors": ["src/elf/chunk.rs: Chunk::apply_relocations", "src/elf.rs: Writer::handle_relocations", "src/elf/chunk.rs: apply_relocation"]}
{"id": "C89", "title": "References to sections reach the merged section", "statement": "The same for relocations against the section symbol of an object: the address is that of the place in the output where that object's section was merged.", "quantifier": "every link of well-formed inputs, every relocation against a section symbol", "why_tests_cant": "Section symbols of different objects share the same table key (section index); only all combinations show that they are kept apart.", "anchors": ["src/elf/symbol_table.rs: SymbolTable::add_symbol", "src/elf/section.rs: Section::patch_symbol_values"]}
{"id": "C90", "title": "Calls of imported functions reach their PLT entry", "statement": "Every PLT32 relocation against a symbol of a shared library leads, in the bytes of the output, to an entry of .plt that jumps through a word of .got.plt for which there is a JUMP_SLOT relocation naming that symbol.", "quantifier": "every link of well-formed inputs, every such relocation", "why_tests_cant": "Composes scanning, PLT construction, dynamic relocations and layout.", "anchors": ["src/elf.rs: Writer::scan_relocations, patch_plt_and_got_plt", "src/elf.rs: Writer::patch_plt_and_got_plt", "src/elf/plt.rs: expand", "src/elf/chunk.rs: apply_relocation"]}
{"id": "C91", "title": "GOT loads of imported symbols reach their slot", "statement": "Every GOTPCRELX or REX_GOTPCRELX relocation against a symbol of a shared library leads, in the bytes of the output, to a word inside .got for which there is exactly one GLOB_DAT relocation, and that one names the symbol.", "quantifier": "every link of well-formed inputs, every such relocation", "why_tests_cant": "Composes scanning, slot allocation, dynamic relocations and layout.", "anchors": ["src/elf.rs: Writer::scan_relocations, handle_relocations, compute_tables", "src/elf/chunk.rs: apply_relocation"]}
{"id": "C92", "title": "Direct references to imported symbols reach the symbol", "statement": "Every direct reference (R_X86_64_64, 32, 32S, PC32) of an object to a symbol of a shared library leads to the symbol at run time: to its copy in .copyrel, or the field has a dynamic relocation. (Violated for functions: a pointer to a library function is null in the output and no dynamic relocation applies to it.)", "quantifier": "every link of well-formed inputs, every such relocation", "why_tests_cant": "Composes copy relocations, dynamic symbol values and layout.", "anchors": ["src/elf/chunk.rs: apply_relocation", "src/elf.rs: Writer::compute_tables"]}
{"id": "C93", "title": "Relaxed GOT loads compute the address of the symbol", "statement": "Every REX_GOTPCRELX relocation against a symbol that no shared library provides sits, in the input, in a load through the GOT, and the instruction at that place of the output computes into the same register the value that the output's symbol table gives the symbol.", "quantifier": "every link of well-formed inputs, every such relocation", "why_tests_cant": "Composes instruction rewriting with merging, layout and symbol resolution.", "anchors": ["src/elf/chunk.rs: apply_relocation", "src/elf/chunk.rs: Chunk::apply_relocations"]}
{"id": "C94", "title": "The dynamic loader finds every dynamic symbol with .hash", "statement": "Looking a name up in the output the way the dynamic loader does with DT_HASH - hash the name, walk the chain in .hash, compare the names in .dynsym/.dynstr - ends for every name, finds the entry of .dynsym with that name if there is one and nothing otherwise; there is one exactly for the names that shared libraries offered for the link.", "quantifier": "every link of well-formed inputs with hash style sysv or both, every non-empty name; the symbols offered by libraries are global or weak", "why_tests_cant": "Composes the hash functions, the table construction, the order of the dynamic symbol table and its string table.", "anchors": ["src/elf.rs: Writer::compute_sections", "src/elf/symbol_table.rs: HashTable::add_symbols, SymbolTable::sorted", "src/name.rs"]}
{"id": "C95", "title": "The dynamic loader finds every dynamic symbol with .gnu.hash", "statement": "Looking a name up in the output the way the dynamic loader does with DT_GNU_HASH finds the entry of .dynsym with that name, so that copied variables are shared between the executable and its libraries. (Violated: with seven imported variables a .. g the copied variable c is not found.)", "quantifier": "every link of well-formed inputs with hash style gnu or both, every non-empty name", "why_tests_cant": "Depends on the hash values of all names together.", "anchors": ["src/elf.rs: Writer::compute_sections", "src/elf/symbol_table.rs: GnuHashTable::add_symbols, SymbolTable::sorted", "src/name.rs"]}
{"id": "C96", "title": "Linking well-formed inputs of moderate size never crashes", "statement": "After any sequence of calls that well-formed object files lead to - names, sizes and references in order, relocations of the kinds the linker implements, inside the data they are about, not overlapping and in instructions that can be relaxed, sizes and values far below 2 GiB - compute_sections and write_to_disk succeed: no unwrap, index, conversion or arithmetic check on the way can fail. (Violated: a relocation in a section that is not loaded, such as .debug_info, makes the linker panic; without those the claim holds.)", "quantifier": "every sequence of calls that is well-formed and within the limits, every iteration order of the hash maps", "why_tests_cant": "There are over a hundred places that panic, in the scan, the tables, the layout, the patches of the PLT, the bounds of arrays and the relocations; tests reach a few of them with a few inputs.", "anchors": ["src/elf.rs: Writer::compute_sections, Writer::write_to_disk", "src/elf/chunk.rs: Chunk::apply_relocations, apply_relocation", "src/elf/section.rs: Section::patch_symbol_values"]}
{"id": "C97", "title": "No number is cut off in the output", "statement": "Reading the output of a link of well-formed inputs of moderate size as an ELF file gives exactly the numbers that the linker computed, although they pass through casts to 16 and 32 bits and are stored in fields of 1 to 8 bytes: the counts and the entry point in the file header, every field of the section and program headers, of the symbol tables and of the relocation tables. The requirements only concern the inputs; every property above that is stated for an output that can be read back holds for all of them.", "quantifier": "every link of well-formed inputs within the limits whose numbers come from ELF fields and whose section names contain no NUL; every iteration order of the hash maps", "why_tests_cant": "Truncation shows up only at particular sizes; a bound on every address, offset, count and value has to be derived from the sizes of the inputs.", "anchors": ["src/elf.rs: Writer::compute_sections, Writer::write_to_disk", "src/serialize.rs", "src/elf/symbol_table.rs"]}
{"id": "C98", "title": "Linking well-formed files of moderate size never crashes", "statement": "Running the linker on complete object files, archives and libraries - sections inside their files, relocations that refer to existing symbols and are of the kinds implemented, in loaded sections and not overlapping, libraries that can be parsed, archive indexes that list existing members - ends with an output file or with an error that is reported, never with a panic, as long as the sizes are moderate. Reading the inputs and resolving symbols through archives and libraries never panics whatever the sizes. For command lines of object files alone the link also terminates, all requirements are about the contents of the files, and the output, if one is written, satisfies the hypotheses of all properties of links above.", "quantifier": "every file system, every command line, every iteration order of the hash maps, subject to the stated requirements on the files", "why_tests_cant": "Every unwrap, index, conversion and arithmetic check between the command line and the output has to be shown unreachable for all files at once.", "anchors": ["src/lib.rs: Linker::link, find_undefined_symbols_in_libs, process_archives_containing, ElfObject::process_sections, process_symbols, process_relocations", "src/elf.rs: Writer::push_section, add_symbol, compute_sections, write_to_disk"]}
{"id": "C99", "title": "The dynamic loader finds the relocations and symbols", "statement": "A dynamic loader that looks only at the program headers and the memory of the process, starting from PT_DYNAMIC and following DT_RELA, DT_JMPREL, DT_SYMTAB and DT_STRTAB, finds exactly the relocations of .rela.dyn and .rela.plt and every symbol of .dynsym with its name. (Violated with a zero-fill section of larger alignment than .dynamic: the dynamic table the loader sees has no DT_SYMTAB.)", "quantifier": "every link of well-formed inputs", "why_tests_cant": "Quantifies over all layouts and all dynamic tables.", "anchors": ["src/elf.rs: Writer::generate_program_headers, Writer::add_dyn_entries, try_add_dyn_entries"]}
{"id": "C100", "title": "The program can be started", "statement": "If the shared libraries have every symbol the program imports from them, the dynamic loader can apply every dynamic relocation of the output: each relocation has a symbol it can bind, and what it writes lies in writable memory. (Violated by COPY relocations of large objects, whose place reaches beyond the writable segment.)", "quantifier": "every link of well-formed inputs, every set of libraries that has the imported symbols", "why_tests_cant": "All programs, all libraries; a test starts one program.", "anchors": ["src/elf.rs: Writer::scan_relocations, Writer::assign_section_addresses, Writer::handle_relocations", "src/elf/copy_rel.rs: insert, expand"]}
{"id": "C101", "title": "Calls of library functions reach the function at run time", "statement": "After the dynamic loader has applied the relocations, every call or jump in the program whose PLT32 relocation names a function of a shared library still is the instruction the file has, and leads, through the PLT entry and the word of .got.plt, to the address of that function.", "quantifier": "every link of well-formed inputs whose zero-fill sections stand last, every set of libraries, every started process", "why_tests_cant": "Composes relocation, PLT, GOT and dynamic relocation over all programs and all library addresses.", "anchors": ["src/elf.rs: Writer::handle_relocations", "src/elf.rs: Writer::patch_plt_and_got_plt", "src/elf/plt.rs: expand", "src/elf/chunk.rs: apply_relocation"]}
{"id": "C102", "title": "Loads through the GOT give the address at run time", "statement": "After the dynamic loader has applied the relocations, every instruction whose GOTPCRELX or REX_GOTPCRELX relocation names a symbol of a shared library reads a word that holds the address of that symbol. (Violated: the copy of a data object overwrites the words of .got.)", "quantifier": "every link of well-formed inputs, every set of libraries, every started process", "why_tests_cant": "Composes relocation, GOT and dynamic relocation over all programs and libraries.", "anchors": ["src/elf.rs: Writer::handle_relocations, Writer::scan_relocations", "src/elf/copy_rel.rs: expand"]}
{"id": "C103", "title": "Code and initialised data are intact when the program starts", "statement": "After the dynamic loader has applied the relocations, every allocated section with contents other than .got, .got.plt and .copyrel holds the bytes the file has for it. (Violated: the copy of a data object of a shared library overwrites initialised variables.)", "quantifier": "every link of well-formed inputs, every set of libraries, every started process", "why_tests_cant": "All layouts and all libraries; the overlap shows only with copied objects.", "anchors": ["src/elf.rs: Writer::compute_sections", "src/elf/copy_rel.rs: fill_header, expand"]}
{"id": "C104", "title": "A run that reports an executable has written it", "statement": "When dld ends with exit status 0 it has either printed the help text, because the arguments ask for it, and changed no file, or the file it reports is the result of a link and no other file has changed. Without linker scripts the file is the one the last -o names (./out by default), and it is the link of exactly the files the arguments name, in order and by kind, with the options they give.", "quantifier": "every command line, file system, parser and iteration order", "why_tests_cant": "End to end behaviour over all command lines and file systems.", "anchors": ["src/main.rs: main, parse_args, handle_linker_args, search_for_inputs", "src/lib.rs: Linker::link"]}
{"id": "C105", "title": "A run that fails says why, and changes at most the output file", "statement": "When dld ends with exit status 1, the message is about an argument that cannot be understood or about an input that stands for no file, and then no file has changed; or it is the linker's error about the files named, and then the output file is empty (or nothing has changed, if it could not be created) and every other file is as before.", "quantifier": "every command line without linker scripts, file system, parser and iteration order", "why_tests_cant": "All failures of all command lines.", "anchors": ["src/main.rs: main, parse_args, search_for_inputs", "src/lib.rs: Linker::link"]}
{"id": "C106", "title": "Mistakes on the command line do not crash the program", "statement": "Whatever the arguments are, dld reports mistakes in them. (Violated: a directory given with -LDIRECTORY that does not exist is a panic, and so is a dynamic linker whose path has no file name.)", "quantifier": "every command line and file system", "why_tests_cant": "All command lines.", "anchors": ["src/main.rs: handle_linker_args (line 182), search_for_inputs"]}
{"id": "C107", "title": "--help prints the help text", "statement": "A command line with --help or -h prints the help text, ends with exit status 0 and changes nothing. (Violated: the inputs are looked for first, and a missing one is an error.)", "quantifier": "every command line and file system", "why_tests_cant": "All command lines.", "anchors": ["src/main.rs: main, parse_args"]}
{"id": "C108", "title": "-lNAME is the library libNAME", "statement": "-lNAME (and -l NAME) stands for libNAME.so in one of the directories given with -L, or for libNAME.a if no directory has libNAME.so. (Violated: a file called NAME in the current directory or in one of the directories is taken instead.)", "quantifier": "every command line, file system and iteration order", "why_tests_cant": "All file systems.", "anchors": ["src/main.rs: search_for_inputs, handle_linker_args"]}
{"id": "C109", "title": "An executable has an entry point", "statement": "Every executable that is written starts at the address of _start. (Violated: without _start the entry point is 0 and no error is reported.)", "quantifier": "every link", "why_tests_cant": "All inputs.", "anchors": ["src/elf.rs: Writer::handle_special_symbols", "src/lib.rs: Linker::link"]}
{"id": "C110", "title": "Every ELF input is linked or reported", "statement": "Every input that is an ELF file and no shared library is linked, or an error names it. (Violated: ELF files that are no object files, such as executables, are ignored without a message.)", "quantifier": "every link", "why_tests_cant": "All inputs.", "anchors": ["src/lib.rs: Input::to_elf_object, Linker::link (lines 240-245)", "src/main.rs: file_type"]}
{"id": "C111", "title": "Every section of every linked file is in the output at its place", "statement": "Each copied section of each linked object file (of the command line or of an archive) is in the one output section of its name, right behind everything the files before it and the earlier sections of its file put there, byte for byte as in its file except where its relocations apply; the output section is exactly as long as the sum of its parts.", "quantifier": "every link of well-formed files, every linked file, every section of it, every byte", "why_tests_cant": "All files, all numbers of files and sections.", "anchors": ["src/lib.rs: ElfObject::process_sections", "src/elf.rs: Writer::push_section"]}
{"id": "C112", "title": "References between files lead to the definition", "statement": "When one file defines a symbol and no other does (and mentions with another value are weaker and come first), the symbol table of the output gives it the address of the definition's place in the output; every reference to it from any file, by an absolute, relative or PLT relocation or by a relaxed GOT load, leads there, and every reference to a section leads to the place of that section of its own file.", "quantifier": "every link of well-formed files, every reference and definition in them", "why_tests_cant": "All files.", "anchors": ["src/lib.rs: ElfObject::process_symbols, process_relocations", "src/elf.rs: Writer::add_symbol, add_relocation, compute_sections"]}
{"id": "C113", "title": "References to what no file defines lead to the library's symbol", "statement": "When the files use a name that none of them defines and the link succeeds, every call of it in any file leads to a PLT entry that is a lazily bound call of that name, and every GOT load of it to a GOT word that one GLOB_DAT relocation fills with the address of that name.", "quantifier": "every link of well-formed files, every reference in them", "why_tests_cant": "All files.", "anchors": ["src/lib.rs: Linker::find_undefined_symbols_in_libs", "src/elf.rs: Writer::add_dyn_symbol, patch_plt_and_got_plt, scan_relocations"]}
{"id": "C114", "title": "A started program is the program in the files", "statement": "When the loader has loaded the output and applied its dynamic relocations, the program runs the code of the object files: it starts if the libraries have what the files leave undefined; calls and GOT loads in the files reach the library's symbols; every section with data is in memory at its place. (Violated when zero-fill sections do not stand last or copies of data objects overwrite other data.)", "quantifier": "every link of well-formed files, all addresses of libraries", "why_tests_cant": "All files, all library placements.", "anchors": ["src/elf.rs: Writer::compute_sections, write_to_disk", "src/lib.rs: Linker::link"]}
{"id": "C115", "title": "Sections keep their permissions", "statement": "Every byte of every allocated section of a linked file is in memory that the program may read, and may write or execute exactly if that section asks for it. (Violated when sections of one name ask for different permissions: those of the first are used for all, so code can end up in memory that is not executable.)", "quantifier": "every link of well-formed files, every section of every file, every byte of it", "why_tests_cant": "All files and all ways to mix permissions under one name.", "anchors": ["src/elf.rs: Writer::add_section, Writer::generate_program_headers"]}
{"id": "C116", "title": "No segment is writable and executable unless an input section is", "statement": "If the output has a segment that is both writable and executable, one of the linked files has an allocated section that is both.", "quantifier": "every link of well-formed files, every program header", "why_tests_cant": "The absence of a bad segment for all inputs; tests see only the segments of their inputs.", "anchors": ["src/elf.rs: Writer::generate_program_headers, Writer::new"]}
{"id": "C117", "title": "Thread-local data and stack permissions have program headers", "statement": "If a linked file has thread-local data the output has a PT_TLS header for it, and if the files say that they need no executable stack the output has a PT_GNU_STACK header that says so. (Violated for every link: the headers are always PT_PHDR, PT_INTERP, PT_DYNAMIC and PT_LOAD only.)", "quantifier": "every link of well-formed files", "why_tests_cant": "The absence of a header kind for all inputs.", "anchors": ["src/elf.rs: Writer::generate_program_headers"]}
{"id": "C118", "title": "Constructors and destructors run", "statement": "The loader calls every function that a linked file has in a section of constructors (SHT_INIT_ARRAY) or destructors (SHT_FINI_ARRAY): the array that the dynamic section of the output names has, at the place of that section, the address of the function. (Violated when such sections have several names, as those of constructors with priorities do: the dynamic section then names several arrays, of which a loader uses one.)", "quantifier": "every link of well-formed files, every entry of every such section", "why_tests_cant": "All files, names of sections and placements; a test has constructors of one kind.", "anchors": ["src/elf.rs: dyn_entries, try_add_dyn_entries", "src/elf.rs: Writer::add_section"]}
{"id": "C119", "title": "A shared library that is not needed changes nothing", "statement": "Giving the linker one more shared library, at any place among its libraries and with or without --as-needed, does not change the outcome of the link (the bytes of the executable, or the error) if no input leaves a symbol undefined that the library has.", "quantifier": "every set of files, every link, every order of hash tables, every library without a needed symbol", "why_tests_cant": "All files and all positions of the library; a test has one library.", "anchors": ["src/lib.rs: Linker::find_undefined_symbols_in_libs", "src/lib.rs: Linker::link"]}
{"id": "C120", "title": "An archive that is not needed changes nothing", "statement": "Giving the linker one more archive does not change the outcome of the link if no input leaves a symbol undefined that is in the index of the archive, whatever the members of the archive are.", "quantifier": "every set of files, every link, every order of hash tables, every archive without a needed symbol", "why_tests_cant": "All files and all archives; a test has one archive.", "anchors": ["src/lib.rs: Linker::process_archives_containing", "src/lib.rs: Linker::link"]}
{"id": "C121", "title": "Absolute symbols keep their values", "statement": "A symbol that is defined as absolute (SHN_ABS) in exactly one linked file has the same value, size, type and binding in the symbol table of the executable and is still absolute, and every reference to it reaches exactly that value plus the addend, wherever sections are placed.", "quantifier": "every link of well-formed files, every absolute definition and every reference to it", "why_tests_cant": "All layouts and all values; a test has one symbol at one layout.", "anchors": ["src/elf.rs: Writer::add_symbol", "src/elf.rs: Writer::compute_sections", "src/elf/chunk.rs"]}
{"id": "C122", "title": "Common symbols get storage", "statement": "For a tentative definition (SHN_COMMON), for example an uninitialised global of C compiled with -fcommon, the executable has writable memory of the symbol's size and alignment, and references reach it. (Violated by every such symbol: it stays in the symbol table with its alignment as its value, no memory is set aside, and references reach the address that is the alignment.)", "quantifier": "every link of well-formed files with a common symbol", "why_tests_cant": "The absence of memory for all inputs.", "anchors": ["src/elf.rs: Writer::add_symbol", "src/lib.rs: Symbol::process"]}
{"id": "C123", "title": "Indirect functions are resolved", "statement": "A call of an indirect function (STT_GNU_IFUNC) that the program defines reaches the function that its resolver chooses: the executable has a dynamic relocation R_X86_64_IRELATIVE for it. (Violated by every such function: calls run the resolver instead of the chosen function, no executable has such a relocation. Functions that a shared library offers are called through the procedure linkage table and resolved there.)", "quantifier": "every link of well-formed files with a reference to such a function", "why_tests_cant": "The absence of a relocation for all inputs.", "anchors": ["src/elf/plt.rs, src/elf/got.rs", "src/elf.rs: Writer::handle_relocations", "src/elf/chunk.rs"]}
{"id": "C124", "title": "Weak references may stay unresolved", "statement": "If a name that the files only mention weakly (STB_WEAK) has no definition in any file, archive or library, the link succeeds and the symbol has the value 0. (Violated: every such link fails with an error that lists the name.)", "quantifier": "every set of files with such a name", "why_tests_cant": "All files; a test has one file.", "anchors": ["src/elf.rs: Writer::undefined_symbols", "src/lib.rs: Linker::link"]}
{"id": "C125", "title": "Relocations without a symbol are applied", "statement": "The field of a relocation that refers to no symbol (symbol index 0) holds its addend in the executable, as the field of a relocation against a symbol of value 0 does. (Violated: such relocations are dropped and the field keeps the bytes of the file.)", "quantifier": "every link of well-formed files, every such relocation", "why_tests_cant": "All files and fields; a test has one relocation.", "anchors": ["src/lib.rs: Object::process_relocations"]}
{"id": "C126", "title": "Libraries are asked for by their own names", "statement": "The executable asks the loader (DT_NEEDED) for a library by the name that the library has itself (DT_SONAME). (Violated whenever this is not the name of the file: the executable names the files given to the linker and nothing else.)", "quantifier": "every link, every name that is not the name of a file given to the linker", "why_tests_cant": "All libraries and names; a test has one library.", "anchors": ["src/lib.rs: Linker::find_undefined_symbols_in_libs", "src/elf.rs: Writer::compute_sections"]}
{"id": "C127", "title": "The executable does not depend on where the files are", "statement": "Linking the same files from other places (another directory, another name for the objects, archives and the output) gives the same executable byte for byte, needs the same number of rounds, and fails exactly when the other link fails, with the same error about the new paths. Only the file names of libraries must stay, as they are part of the executable.", "quantifier": "every link, every renaming of paths, every order in which hash tables are visited, every number of rounds", "why_tests_cant": "All renamings and files; a test has one directory.", "anchors": ["src/lib.rs: Linker::link", "src/elf/symbol_table.rs: SymbolTable::add_symbol", "src/elf.rs: Writer::add_symbol"]}
{"id": "C128", "title": "The executable names the dynamic linker and the libraries of the command line", "statement": "The program interpreter of an executable is the path that the last -dynamic-linker of the command line gives (or the default), and its DT_NEEDED entries are the last part of that path followed by the last parts of paths of libraries that the command line names (libNAME.so for -lNAME); for every symbol that the executable takes from outside, the last part of the path of a library that has the symbol is among them.", "quantifier": "every command line without linker scripts whose link of well-formed files succeeds; libraries have proper file names that are not names of their symbols", "why_tests_cant": "All command lines and files; a test has one.", "anchors": ["src/main.rs: main", "src/lib.rs: Linker::find_undefined_symbols_in_libs", "src/elf.rs: Writer::new"]}
{"id": "C129", "title": "The first library that has a symbol provides it, and libraries come before archives", "statement": "One more shared library does not change the outcome of a link when every symbol of it that an input leaves undefined is in a library named before it (in particular naming a library twice is harmless), and one more archive does not when every symbol of its index that an input leaves undefined is in a library.", "quantifier": "every set of files, every place of the further library, every order in which hash tables are visited, every number of rounds", "why_tests_cant": "All sets of files and libraries; a test has one.", "anchors": ["src/lib.rs: Linker::find_undefined_symbols_in_libs", "src/lib.rs: Linker::process_archives_containing"]}
{"id": "C130", "title": "Libraries find the program's symbols", "statement": "A shared library that refers to a symbol which the linked files define (a callback, an interposed function) finds the definition of the program: the executable offers it in its dynamic symbol table. (Violated by every link: nothing that the linked files define is in the dynamic symbol table. The copies of library variables are offered, so program and library share one variable.)", "quantifier": "every link of well-formed files whose numbers fit, every symbol", "why_tests_cant": "All programs and libraries; a test has one.", "anchors": ["src/elf.rs: Writer::add_dyn_symbol", "src/elf.rs: Writer::handle_special_symbols", "src/elf/symbol_table.rs: SymbolTable::update_object_symbols"]}
{"id": "C131", "title": "Functions that several files define", "statement": "A reference to a name that more than one input section defines (static functions of the same name in two files, an inline function that two files instantiate) leads to one of the definitions: to that of its own file for a static function, to one and the same for an inline function. (Violated by every such link: the one symbol of the output has the addresses of all the input sections added up, and lies behind every definition. All references lead to that one place.)", "quantifier": "every link of well-formed files whose numbers fit, every name defined in two sections with contents", "why_tests_cant": "All files and names; a test has one.", "anchors": ["src/elf.rs: Writer::add_symbol_inner", "src/elf.rs: Writer::compute_sections", "src/elf/symbol_table.rs: SymbolTable::add_symbol"]}
{"id": "C132", "title": "Variables without initial value are zero when the program starts", "statement": "When the loader has loaded the output and applied its dynamic relocations, every variable that a file defines in a zero-fill section (.bss) is zero. (Violated: the copy of a data object of a shared library overwrites the section.)", "quantifier": "every link of well-formed files, every variable, all libraries, every started process", "why_tests_cant": "All programs and libraries; a test starts one.", "anchors": ["src/elf.rs: Writer::compute_sections", "src/elf.rs: Writer::push_section", "src/elf/chunk.rs"]}
{"id": "C133", "title": "Options that ask for something in the output are honoured", "statement": "--eh-frame-hdr puts a table for exception handling into the executable that a program finds through a PT_GNU_EH_FRAME header, and --build-id puts an identifier of the build into a note that a PT_NOTE header describes. (Violated by every link: the options are accepted and ignored. They do no harm: with or without them, and with or without -m elf_x86_64, -z and the group marks, the program ends with the same message and the same bytes in every file.)", "quantifier": "every command line, every file system, every iteration order; every link of well-formed files whose numbers fit", "why_tests_cant": "All command lines and files; a test has a few.", "anchors": ["src/main.rs: handle_linker_args", "src/elf/options.rs: Options", "src/elf.rs: Writer::new"]}
{"id": "C134", "title": "Symbols have the strictest visibility that a file gives them", "statement": "If one file declares a symbol hidden, the symbol is hidden in the output (the gABI has the strictest visibility win), and a reference to a hidden symbol leads to a definition in the linked files, never to a library. (Violated: the visibility is that of the first of the strongest mentions, whatever the others say, and a hidden symbol that no file defines is taken from a library.)", "quantifier": "every link of well-formed files whose numbers fit, every name", "why_tests_cant": "All files, all sets of mentions of a name; a test has one.", "anchors": ["src/elf/symbol_table.rs: SymbolTable::add_symbol", "src/lib.rs: Linker::find_undefined_symbols_in_libs"]}
{"id": "C135", "title": "A link with two global definitions of a name fails", "statement": "If a link succeeds, every name has at most one global definition in the files that were linked, objects and archive members alike; in particular naming an object file that defines a global symbol twice, or two files that define the same one, gives an error and no output. (Violated if an earlier file mentions the name as a unique symbol, binding 10: then any number of definitions is accepted.)", "quantifier": "every set of input files whose names take less than 4 GiB, every iteration order", "why_tests_cant": "All pairs of files, with anything between them and any archive members; a test has one pair.", "anchors": ["src/elf/symbol_table.rs: SymbolTable::add_symbol", "src/symbol.rs: Symbol::higher_bind_than", "src/lib.rs: Linker::link"]}
{"id": "C136", "title": "The output can be run if and only if the link succeeded", "statement": "A successful link leaves the output with the permissions rwxr-xr-x, whatever they were, and changes those of no other file; a link that reports an error leaves no executable file in place of the output; and the linker can write to any file the user may write to. (Violated: a failed link leaves an empty executable file if the output of an earlier link was there, and an output that belongs to somebody else, such as /dev/null, makes the linker crash.)", "quantifier": "every file system, every command, every iteration order", "why_tests_cant": "All states of the file system before the link; a test starts from one.", "anchors": ["src/elf.rs: Writer::new", "src/elf.rs: Writer::write_to_disk", "src/lib.rs: Linker::link"]}
{"id": "C137", "title": "The first archive that has a symbol provides it", "statement": "If several archives on the command line have a member for a needed symbol, the member of the first one is linked. (Violated: the archives are kept in a hash set, so that two runs of one command can link different members, and the program calls different functions. If no two archives have a name in common, each member is from the first, and only, archive with the name it was linked for.)", "quantifier": "every set of inputs, every iteration order", "why_tests_cant": "The iteration order of a hash set differs from run to run.", "anchors": ["src/lib.rs: Linker::process_archives_containing", "src/main.rs: main"]}
{"id": "C138", "title": "Programs bind to the versions of library symbols they were linked with", "statement": "If a library has versions of its symbols, the executable records which version of each it uses (DT_VERNEED, DT_VERSYM), so that the loader binds that one or refuses to start the program; and it has the entry (DT_DEBUG) by which a debugger finds the libraries. (Violated by every link: the dynamic table never has these entries, and no version sections are made.)", "quantifier": "every link of well-formed files whose numbers fit", "why_tests_cant": "The absence of the entries for all inputs.", "anchors": ["src/elf.rs: Writer::compute_sections", "src/elf.rs: Writer::add_dyn_symbol"]}
{"id": "C139", "title": "Error messages tell different failures apart", "statement": "What the linker prints when it fails tells the user which file the error is about and what the cause is, with every name in it: two different failures never print the same. (Violated: the undefined names are joined with commas, so one name with a comma in it reads like two names. It holds for names without spaces and commas and paths without backquotes.)", "quantifier": "every pair of failures with such names and paths", "why_tests_cant": "All names and paths; quoting and joining must be injective together.", "anchors": ["src/error.rs: Display for Error", "src/lib.rs: format_list", "src/main.rs: main"]}
{"id": "C140", "title": "Complete programs link", "statement": "If all input files can be read and are well-formed, every name that some object or archive member needs is defined by an object or a library or is in the index of an archive (or is _GLOBAL_OFFSET_TABLE_ or a bound of an init or fini array that some object has), and no name has two global definitions, then the link ends and succeeds.", "quantifier": "every set of objects, archives and shared libraries of moderate size, every iteration order of the linker's hash maps", "why_tests_cant": "completeness: a unit test shows that one program links; that no complete program is rejected, for no order of files or iteration, is a statement over all inputs", "anchors": ["src/lib.rs: Linker::link", "src/lib.rs: ElfObject::process_symbols", "src/elf/symbol_table.rs: SymbolTable::add_symbol", "src/elf.rs: Writer::undefined_symbols", "src/elf.rs: handle_special_symbols", "src/elf.rs: handle_relocations"]}
{"id": "C141", "title": "The order of the objects does not decide whether a program links", "statement": "If a set of object files links when they are named in one order, it links when they are named in any other order.", "quantifier": "every set of well-formed objects of moderate size, every permutation of them, every iteration order of the linker's hash maps", "why_tests_cant": "a test tries some orders of some files; independence of the order quantifies over all programs and all permutations", "anchors": ["src/lib.rs: Linker::link", "src/lib.rs: ElfObject::process_symbols", "src/elf/symbol_table.rs: SymbolTable::add_symbol", "src/elf.rs: Writer::undefined_symbols"]}
{"id": "C142", "title": "A run leaves its input files alone", "statement": "Whatever the arguments are and however the run ends, the contents of every input file are the same after the run as before; only the output file is written.", "quantifier": "every argument list, file system and hash order; every run that ends with an exit status", "why_tests_cant": "A test checks the output, seldom the inputs, and never runs with an output path that is also an input (dld -o main.o main.o), which empties the object before it is read.", "anchors": ["src/lib.rs: Linker::link", "src/elf.rs: Writer::new", "src/main.rs: main"]}
{"id": "C143", "title": "What is not for the executable is left out", "statement": "Sections that the object files mark as not belonging in an executable are left out: of several COMDAT groups with one signature (an inline function that several files instantiate) all but one, the tables of groups, sections with SHF_EXCLUDE, and the symbol, string, relocation and dynamic tables of the files. (Violated by every link with duplicate groups, group tables or excluded sections: all of them are copied.)", "quantifier": "every link of well-formed files, every such section", "why_tests_cant": "A test sees that the program runs; that an inline function is there twice, or that notes for the linker are in the executable, shows only in its size or in the difference of two function addresses.", "anchors": ["src/lib.rs: SKIPPED_SECTIONS", "src/lib.rs: ElfObject::process_sections", "src/elf.rs: Writer::push_section"]}
{"id": "C144", "title": "Object files for other machines are rejected", "statement": "An object file whose header says that it is for another machine, word size or byte order than x86-64 (for example an AArch64 object) is not linked: the linker reports an error that names it. (Violated: the header is not looked at; whatever links with x86-64 objects links with objects for any machine, and the executable says it is for x86-64 and has the foreign code in it.)", "quantifier": "every set of object files that meets the requirements of C140, every object, every hash order", "why_tests_cant": "The tests link x86-64 objects; the mistake needs a build that mixes objects of two targets, and shows only when the program is run.", "anchors": ["src/lib.rs: Input::to_elf_object", "src/elf.rs: Writer::new"]}
{"id": "C145", "title": "Missing and damaged inputs are reported", "statement": "If an object, a library or an archive of the command line cannot be read, or is not a file of its kind (truncated, overwritten, another format), the link ends with an error message that names an input at fault; it does not succeed, and it does not crash. (Violated: a library that is no ELF file makes the linker panic.)", "quantifier": "every set of inputs with a missing or damaged one among otherwise complete files, every hash order", "why_tests_cant": "A test has one damaged file of one kind; that every damaged input is found, also one that no symbol would be looked up in, and that none leads to success needs all inputs and all orders.", "anchors": ["src/lib.rs: Linker::find_undefined_symbols_in_libs", "src/lib.rs: Linker::process_archives_containing", "src/lib.rs: Linker::link", "src/error.rs: ErrorExt"]}
{"id": "C146", "title": "The previous output has no influence", "statement": "Linking to a path where there is an older executable, a half-written file or anything else (that the user owns and may write) ends in the same way and leaves the same files as linking to a path where there is nothing. In particular, the same link repeated with the same order of its hash tables leaves the same executable with the same permissions.", "quantifier": "every file system, two states of it that differ in the output only, every link, every hash order", "why_tests_cant": "Tests link into an empty directory; left-over bytes of a longer earlier output, or a dependence on an existing file, show only in rebuilds.", "anchors": ["src/elf.rs: Writer::new", "src/elf.rs: Writer::write_to_disk", "src/lib.rs: Linker::link"]}
{"id": "C147", "title": "Private symbols stay private", "statement": "A reference in a file to one of its private (local) symbols leads to that symbol, whatever other files and libraries have; and a reference in a file is never satisfied by a private symbol of another file. (Violated: symbols are identified by their names alone, so the references of all files to one name lead to the same address; with two private symbols of one name that is the sum of both addresses, and a reference to a function that no file makes public is linked to a private one.)", "quantifier": "every link of well-formed files, every private symbol and every reference", "why_tests_cant": "Static functions of the same name in two files are common in real programs, but unit tests of the symbol table see one file at a time.", "anchors": ["src/lib.rs: ElfObject::process_symbols", "src/lib.rs: impl PartialEq for Symbol", "src/elf/symbol_table.rs: SymbolTable::add_symbol"]}
{"id": "C148", "title": "The gaps in the executable hold zeros", "statement": "Every byte of the executable that belongs neither to the file header, nor to the program headers, nor to the contents of a section, nor to the section header table is zero; no byte of an input, of memory or of an earlier output shows up between the parts.", "quantifier": "for every successful link and every offset in the file", "why_tests_cant": "The gaps depend on the alignment and size of every section of the link; a test sees those of its own link.", "anchors": ["src/elf.rs: Writer::write_to_disk"]}
{"id": "C149", "title": "Naming an archive again changes nothing", "statement": "A run whose command line names an archive once more at its end, by the same name or by another name of the same file (path, -lname, symbolic link), does exactly what the run without the repetition does: same exit, same message, same files.", "quantifier": "for every command line, file system, content of the files and iteration order of the hash maps", "why_tests_cant": "Build systems repeat archives in many ways; a test tries one repetition on one set of files.", "anchors": ["src/main.rs: search_for_inputs", "src/main.rs: main"]}
{"id": "C150", "title": "Running the same command again gives the same result", "statement": "After a successful run, a second run of the same command line with unchanged inputs succeeds and leaves the same files; and in general a run depends on nothing in the file system but the paths it tries for its inputs.", "quantifier": "for every command line without linker scripts, every file system, every content of the files and iteration order of the hash maps", "why_tests_cant": "Whether the output of a run is picked up by the next one depends on every name, directory and file; a test runs one command in one directory, usually once.", "anchors": ["src/main.rs: search_for_inputs", "src/main.rs: main", "src/elf.rs: Writer::new"]}
{"id": "C151", "title": "Contents do not influence layout", "statement": "Changing only the bytes inside the sections of the input files (same section sizes, symbols, relocations; archive members likewise) changes only bytes inside sections of the executable: it has the same length, the same ELF header, program headers, section headers and symbol table. If one set of inputs is refused, the other is refused with the same message. The only other possibility is a crash of the linker on one of them (it crashes on instructions it cannot rewrite).", "quantifier": "all options, object files, libraries, archives, all pairs of contents, all hash iteration orders", "why_tests_cant": "two runs on arbitrary inputs are compared; tests can compare finitely many pairs only", "anchors": ["src/lib.rs: link", "src/lib.rs: process_sections", "src/elf.rs: compute_sections", "src/elf.rs: assign_section_addresses", "src/elf.rs: write_to_disk", "src/elf/chunk.rs: apply_relocations"]}
{"id": "C152", "title": "Archive members that nothing asks for have no influence", "statement": "Say a link can reach the objects of the command line and those archive members that an index gives for a name which a reached file leaves undefined, no object of the command line defines globally and no library has. Changing an archive in any other respect - members that are not reached may be added, removed, damaged, define names a second time or need names that nothing has - leaves the result as it is: the same executable byte for byte, or the same error.", "quantifier": "every set of objects, libraries and archives whose reached symbol names take less than 4 GiB, every change of the archives outside the reached part, every iteration order of the linker's hash maps, every number of rounds", "why_tests_cant": "relates two runs on arbitrary archives; which members matter is a fixed point over all files, and tests compare finitely many pairs only", "anchors": ["src/lib.rs: process_archives_containing", "src/lib.rs: find_undefined_symbols_in_libs", "src/lib.rs: link", "src/elf.rs: undefined_symbols"]}
{"id": "C153", "title": "Command lines that name a linkable program build it", "statement": "If every argument can be read, none asks for help, every input stands for a file, none of these files is a linker script, the output file can be written and the linker can link these files with the options given, then the run of the program ends with exit status 0, reports the executable at the path the arguments name, has written the linked executable there and has changed no other file.", "quantifier": "every command line, every file system, every iteration order of the hash maps and of the set of search directories", "why_tests_cant": "The chain from the words of the command line through the search for files to the link has no test at all, and a test shows one command line.", "anchors": ["src/main.rs: main", "src/main.rs: handle_linker_args", "src/main.rs: search_for_inputs", "src/lib.rs: Linker::link"]}
{"id": "C154", "title": "A new version of a library gives the same executable", "statement": "Replacing a shared library by another version changes nothing in the outcome of the link (neither the bytes of the executable nor the error) if, for every name that an input needs and no object defines, the symbols of that name have the same type, binding, visibility and size in both versions: where the symbols are in the library, what else the library has and exports, and in which order, has no influence.", "quantifier": "every pair of libraries, every set of files, every iteration order of the hash maps", "why_tests_cant": "Relates two links, over all libraries.", "anchors": ["src/lib.rs: find_undefined_symbols_in_libs", "src/elf.rs: Writer::add_dyn_symbol"]}
{"id": "C155", "title": "A failure while writing is reported and leaves no damaged executable", "statement": "If the file system has no room for the executable, the linker reports an error, and does not leave a file that can be run and is only a part of the executable. If there is room the executable is written completely.", "quantifier": "every set of files, every amount of room, every iteration order of the hash maps", "why_tests_cant": "Needs a full file system, at every possible byte of the output.", "anchors": ["src/elf.rs: Writer::write_to_disk", "src/serialize.rs", "src/lib.rs: Linker::link"]}
{"id": "C156", "title": "More libraries do not break a link", "statement": "If objects, archives and shared libraries link, then they also link when further readable shared libraries are given, wherever these stand among the others on the command line: a library can only resolve more symbols, never cause an undefined symbol, a duplicate definition or a crash. The files are well-formed and of moderate size. With archives, each name that is needed is defined once and globally, and the index of an archive has all global definitions of its members.", "quantifier": "For all environments, command lines, iteration orders of both runs and numbers of rounds; for all sets of additional libraries and all their positions.", "why_tests_cant": "A test adds one library to one command line. Which entries of which library are taken depends on the order of the libraries and of the hash set of undefined symbols, and a symbol that moves from one library to another changes tables that decide whether later steps fail.", "anchors": ["src/lib.rs: find_undefined_symbols_in_libs", "src/lib.rs: Linker::link", "src/elf.rs: Writer::add_dyn_symbol", "src/elf.rs: Writer::undefined_symbols"]}
{"id": "C157", "title": "The order of archives does not decide whether a program links", "statement": "If objects, archives and shared libraries link in one order of the command line, then they link in every order of the objects and of the archives, even if members of several archives need each other: no archive has to be given after the files that need it, and none has to be repeated. Each name that is needed is defined once and globally, the index of each archive has all global definitions of its members, and the files that are reached are well-formed and of moderate size.", "quantifier": "For all environments, command lines, permutations of the objects and of the archives, iteration orders of both runs and numbers of rounds.", "why_tests_cant": "A test tries a few orders of a few files. Which member is loaded in which round depends on the order of the archives, on the order of their indexes and on the iteration order of the hash set of undefined symbols; that all of them end in a complete program is a statement about the fixed point.", "anchors": ["src/lib.rs: Linker::link", "src/lib.rs: Linker::process_archives_containing", "src/elf.rs: Writer::undefined_symbols", "src/elf.rs: Writer::add_symbol"]}
{"id": "C158", "title": "Objects and libraries come before archives", "statement": "A program can replace functions of an archive by its own: giving the linker one more archive, at any place, changes nothing about the outcome if every name in its index that a file of the link leaves undefined is defined globally by an object of the command line or is in a shared library, even if members of the archive are damaged or define the same names.", "quantifier": "For all environments, command lines, archives and numbers of rounds: for every iteration order of one link there is one of the other with the same outcome. Files of the link are the objects and the members that can be reached from them.", "why_tests_cant": "A test overrides one function. Members are loaded in rounds, so whether the archive is asked for a name depends on which members of other archives were loaded before, in the iteration order of several hash tables.", "anchors": ["src/lib.rs: Linker::process_archives_containing", "src/lib.rs: Linker::link", "src/elf.rs: Writer::undefined_symbols"]}
{"id": "C159", "title": "Object files can be put into an archive", "statement": "If objects and shared libraries link, then they also link when some of the objects are put into an archive and the archive is given instead of them: the members that are needed are found through the index, whatever the members need from each other, from the other objects or from libraries. Each name that is needed is defined once and globally, the files are well-formed and of moderate size, and if a file needs the bound of an init or fini array then one of the remaining objects has that array.", "quantifier": "For all environments, command lines, sets of objects that are put into the archive, iteration orders of both runs and numbers of rounds.", "why_tests_cant": "A test packs one object. Whether all members that are needed are found depends on the index, on what the members need from each other, and on the rounds in which the linker searches.", "anchors": ["src/lib.rs: Linker::process_archives_containing", "src/lib.rs: Linker::link", "src/elf.rs: Writer::undefined_symbols"]}
{"id": "C160", "title": "The executable is hardly larger than its inputs", "statement": "The size of the executable is bounded by the sizes of the sections, names and relocations of the objects, of the members of the archives and of the symbols of the libraries, with a fixed amount for each section and symbol and for the headers. On a file system with room for a file of that size the linker does not crash: the whole executable is there, or an error is reported. The files are well-formed and of moderate size.", "quantifier": "For all environments, command lines, iteration orders, numbers of rounds, file systems and amounts of room.", "why_tests_cant": "A test observes the size of one output. Padding, tables and copies of data are added in dependence on all inputs together, and the room that suffices must be known before the link.", "anchors": ["src/elf.rs: Writer::compute_sections", "src/elf.rs: Writer::write_to_disk", "src/lib.rs: Linker::link"]}
{"id": "C161", "title": "Zero-fill sections take no room in the executable", "statement": "The executable consists of the ELF header, the program headers, the bytes of the sections, the section headers, and less than a page of padding for each segment that is loaded. Sections without contents (SHT_NOBITS), like .bss, take no room in the file whatever their size.", "quantifier": "For all sequences of calls to the writer (all inputs) and iteration orders.", "why_tests_cant": "A test can compare the size of one file. Where padding is added depends on the order and the flags of all sections, and a section of zeros that is written out gives a correct program that is too large.", "anchors": ["src/elf.rs: Writer::generate_program_headers", "src/elf/section.rs: Section::size_on_disk", "src/elf.rs: Writer::write_to_disk"]}
