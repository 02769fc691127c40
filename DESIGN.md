# Formal model of dld in Lean 4

`properties.jsonl` states the properties in English, `MANIFEST.json` names the theorems for each,
and `seeded/LOG.jsonl` records the wrong programs the theorems were tested against.

## What is modelled

`lean/Verif/Model/*` is an executable model of the crate, function by function; each definition
cites the lines it models.

| module | source |
|---|---|
| `Model/Bytes`, `Model/Elf` | byte strings, failures, hash maps; ELF64 structures and goblin constants |
| `Model/Serialize` | `src/serialize.rs` |
| `Model/Name` | `src/name.rs` |
| `Model/StringTable` | `src/elf/string_table.rs` |
| `Model/SymbolTable` | `src/symbol.rs`, `SymbolTable` of `src/elf/symbol_table.rs` |
| `Model/HashTables` | `HashTable`, `GnuHashTable` of `src/elf/symbol_table.rs` |
| `Model/Plt` | `src/elf/plt.rs`, `src/elf/copy_rel.rs` |
| `Model/Reloc` | `apply_relocation` of `src/elf/chunk.rs`, `plt_entry_addr` of `src/elf.rs` |
| `Model/Section` | `Chunk` of `src/elf/chunk.rs`, `src/elf/section.rs` |
| `Model/Layout` | section order, program headers, dynamic entries of `src/elf.rs` |
| `Model/Writer` | `Writer` of `src/elf.rs`, from `new` to `write_to_disk` |
| `Model/Locks` | which section locks each function of `Writer` takes and releases, in order |
| `Model/Linker` | `src/lib.rs` |
| `Model/Disk` | `File::create` in `Writer::new`: what a link does to the file system |
| `Model/Options` | `src/elf/options.rs` |
| `Model/Cli`, `Model/Script` | `src/main.rs`, `src/linker_script.rs` |
| `Model/Process` | `main` of `src/main.rs`: from the arguments to the exit status and the files |

`lean/Verif/Spec/*` holds the specifications. They do not use the model's helper functions.

| module | contents |
|---|---|
| `Spec/Hash`, `Spec/HashLookup`, `Spec/Lookup` | the two symbol hashes; lookup in `.hash` and `.gnu.hash` as the gABI and glibc do it; lookup by name in a file |
| `Spec/Symbols` | vocabulary for sequences of symbol additions (mention, strong definition, ...) |
| `Spec/Decode`, `Spec/File`, `Spec/Dynamic` | reading ELF64 structures, section tables, dynamic tables from bytes |
| `Spec/Reloc`, `Spec/X86` | psABI relocation values; decoding of the x86-64 instructions involved |
| `Spec/History`, `Spec/Run` | all sequences of successful calls of `Writer` (`Hist`); complete links (`Run`); conditions on inputs |
| `Spec/Contents`, `Spec/Values`, `Spec/Got`, `Spec/Refs` | which bytes, symbol values, slots and references the inputs call for |
| `Spec/Files` | places, references and definitions in terms of the object files |
| `Spec/Perms` | permissions of sections and segments |
| `Spec/Ctors` | arrays of constructors and destructors |
| `Spec/Unused` | libraries and archives a link does not use; links with the same outcomes |
| `Spec/Fixed` | absolute and common symbols, storage, weak names that nothing defines, all dynamic relocations of a file |
| `Spec/Rename` | the same link with its files at other places: what must stay, what an outcome says about paths |
| `Spec/Asked` | the last part of a path |
| `Spec/Exports` | what the executable offers to the libraries of the process |
| `Spec/Twice` | a symbol defined in a section with contents |
| `Spec/Visibility` | visibility of symbols; the first of the strongest mentions of a name |
| `Spec/OneDef` | global definitions of a name in the linked files |
| `Spec/Silent` | words of a command line that are accepted and change nothing |
| `Spec/Loader` | the memory of a process started from a file |
| `Spec/Runtime` | a dynamic loader with immediate binding: finds its tables through `PT_DYNAMIC`, binds symbols to the executable or to libraries, applies `GLOB_DAT`, `JUMP_SLOT` and `COPY`; instructions in memory. Not described: lazy binding, library constructors, thread-local storage, the tail of the last page of a segment |
| `Spec/Driver`, `Spec/Archive`, `Spec/Blame` | the calls a set of input files leads to; archive indexes; which input an error is about |
| `Spec/Cli`, `Spec/Script`, `Spec/Process` | reading a command line; the grammar of linker scripts; what a run of the program is to do |
| `Spec/Modes` | files that can be run |
| `Spec/Archives` | which archive has a name, and for which name a member was linked |
| `Spec/Versions` | tags and sections for symbol versions and debuggers |
| `Spec/Text` | names and paths that error messages can show unambiguously |
| `Spec/Complete` | when a program is complete: readable files, a definition for every name that is needed, no second definition |
| `Spec/CompleteAr` | the same for programs with archives: truthful indexes of global definitions, needs of members, all inputs of moderate size |
| `Spec/Marked` | COMDAT groups, sections for linkers only |
| `Spec/Machine` | the machine in an ELF header |
| `Spec/Damaged` | missing and damaged inputs |
| `Spec/Rerun` | file systems that differ in the output |
| `Spec/Private` | private symbols |
| `Spec/Repeat` | paths tried, file systems that agree on them, the file system after a run |
| `Spec/Shape` | what it means that two inputs have the same shape; outcomes that agree unless one crashes |
| `Spec/Reached` | the files a link can reach, the names it can ask archives for, worlds whose archives answer alike |
| `Spec/Interface` | what a library offers under a name (C154) |
| `Spec/CompleteLib` | objects and libraries of moderate size: a bound on what the files hold |
| `Spec/MoreLibs` | the same command line with more libraries, in any order (C156) |
| `Spec/Shuffled` | the same objects and archives in another order; indexes with all global definitions (C157) |
| `Spec/CompleteAll` | objects, archives and libraries of moderate size (C98, C140, C157) |
| `Spec/Archived` | an archive that was made of object files (C159) |
| `Spec/Size` | how large an executable can be (C160) |
| `Lemmas/Reached` | links in worlds whose archives answer alike |
| `Lemmas/Near` | relational proof: the whole driver and writer on inputs of the same shape |

`lean/Verif/Lemmas/*` are helper lemmas, `lean/Verif/Props/*` state the properties.
Most properties of the output are stated about the *bytes of the file*: the decoders of
`Spec/File` find the sections and tables in it.

## Conventions

* Sizes, offsets and addresses are `Nat` (`i64` quantities are `Int`). Rust's
  narrowing casts (`as u16`, `as u32`) are modelled by `%`. Overflow of `u64`
  additions (a panic in the debug profile) is outside the model, except where
  stated; a value that does not fit is cut when it is serialised.
* A panic (`unwrap` on `None`, slice index out of range, failed `try_into`,
  `unreachable!`, `unimplemented!`) is `Except.error .panic`; an `Err` is
  `Except.error (.err path kind)`.
* `HashMap`/`HashSet` are lists of entries (`AMap`). Wherever the code iterates over
  one, the order is an explicit argument: `Sched` for the writer, `LinkSched` for the
  driver. `Valid` says that each is a permutation of the entries. Theorems hold for every
  valid order.
* `Arc<RwLock<Section>>` is a section value carrying its identity `ptr`; writing
  through the pointer updates the section with that `ptr`. The synthetic
  payloads are fields of the writer (each is reachable through one pointer only).
* `sort_unstable_by` is "apply an arbitrary permutation, then sort stably", which
  covers every result an unstable sort may return.
* Loops without an evident bound (the resolution loop, script inclusion, the script parser)
  run on fuel; termination is a theorem about when fuel does not run out (C60, C73, C79).

## Conditions on inputs

Theorems about complete links have some of these hypotheses. Each comes with at least one example
link, evaluated by the kernel, that meets it.

| name | meaning |
|---|---|
| `Hist opts ops w` | `w` is the writer after the calls `ops`, all successful. No condition on the inputs. |
| `Run` | `Hist`, then successful `compute_sections` and `write_to_disk` |
| `FlagsOk` | no input section has flags exactly `SHF_WRITE` |
| `NoDynamicPush` | no input section of type `SHT_DYNAMIC` (the driver skips them) |
| `CleanInputs` | no input section has a name of the linker's own sections; data as long as the header says; sections of one name agree on being zero-fill |
| `RefsOk` | symbols and relocations are attached to sections that were pushed |
| `GoodInputs` | the four conditions above |
| `GoodRun` | `Run` with `GoodInputs`, NUL-free section names, and numbers of the output that fit the fields they are stored in |
| `GoodLink` | `GoodRun` with NUL-free symbol names, fitting symbol tables, and named dynamic symbols |
| `LinkRun` | `GoodLink` reached by `Linker::link` from input files |
| `TruthfulIndexes` | the symbol index of an archive names members that define the symbols |
| `ProperDyns` | symbols offered by libraries are global or weak and have a name |

## Plan per property

Shape: **I** induction over histories / invariant, **A** algebraic law or round
trip, **R** refinement to a specification, **D** decision logic, **N** the code
violates the property: a `_violated` theorem exhibits a concrete witness and a
`_partial` theorem proves what does hold. Such properties have status `partial`.

| id | property | modelled by | how it is proved |
|---|---|---|---|
| C01 | SysV ELF hash matches the gABI | Name | A: fold equals the recurrence of the spec on naturals; bound by induction |
| C02 | GNU hash matches the published recurrence | Name | A: fold equals the recurrence of the spec on naturals; bound by induction |
| C03 | String table interning is stable and injective | StringTable | I over request histories; every iteration order of the map |
| C04 | String table image: every returned offset reads back the name | StringTable | I over request histories; R to the C-string reader |
| C05 | Offset to name lookup inverts interning | StringTable | I over request histories; every iteration order of the map |
| C06 | String table image length equals the recorded section size | StringTable | I over request histories; every iteration order of the map |
| C07 | Two strong definitions of one name are rejected | SymbolTable | I over addition histories, one name at a time |
| C08 | No spurious duplicate-definition errors | SymbolTable | N; exact condition for an error by I over addition histories |
| C09 | Resolved binding is the strongest binding seen | SymbolTable | I: the binding is a maximum |
| C10 | A symbol with a definition stays defined | SymbolTable | N + partial: I over addition histories |
| C11 | A resolved symbol carries the value, size and type of its definition | SymbolTable | N + partial: I over addition histories |
| C12 | Local symbols of different objects stay separate | SymbolTable | N + partial: I over addition histories |
| C13 | Symbol table sh_info is the index of the first non-local symbol | SymbolTable | N + partial: sorting lemmas for every permutation |
| C14 | Symbol table order: locals first, complete, duplicate free | SymbolTable | N + partial: sorting lemmas for every permutation |
| C15 | Symbol table image decodes to the table | SymbolTable | A: R to the decoder of symbol tables |
| C16 | SysV hash table finds every dynamic symbol | HashTables | I: chain invariant; R to the gABI lookup |
| C17 | GNU hash table finds every dynamic symbol | HashTables | N + partial: buckets that are contiguous in hash order |
| C18 | GNU hash bloom filter has no false negatives | HashTables | I over the list; A |
| C19 | Hash table images have the declared layout | HashTables | I over the list; A |
| C20 | PLT and .got.plt slots: one per symbol, dense, aligned with each other | Writer.scanRelocations | I over the relocation list, for every history of calls (no condition on inputs); again from the bytes of the file |
| C21 | GOT slots of different symbols never overlap | Writer.scanRelocations | I over the relocation list, for every history of calls (no condition on inputs); again from the bytes of the file |
| C22 | A TLSGD relocation owns two consecutive GOT slots | Writer.scanRelocations | N + partial: the same invariant, for symbols whose first GOT relocation is TLSGD |
| C23 | PLT code jumps through the right slot | Writer.patchPlt, genDynRels, computeTables | I over the slots; R to x86 decoding and relocation tables read from the file |
| C24 | JUMP_SLOT relocation index agrees with the PLT push operand | Writer.patchPlt, genDynRels, computeTables | I over the slots; R to x86 decoding and relocation tables read from the file |
| C25 | GOT data relocation: each dynamic GOT symbol has a GLOB_DAT for its slot | Writer.patchPlt, genDynRels, computeTables | I over the slots; R to x86 decoding and relocation tables read from the file |
| C26 | GOT slot of a locally defined symbol holds its address | Writer | N + partial: what the slot of a local symbol does hold |
| C27 | Calls to symbols inside the executable bypass the PLT | Writer.scanRelocations | I over the relocation list, for every history of calls (no condition on inputs); again from the bytes of the file |
| C28 | COPY relocations get disjoint space in .copyrel | Writer.patchPlt, genDynRels, computeTables | I over the slots; R to x86 decoding and relocation tables read from the file |
| C29 | Relocations compute the psABI value | Reloc | D/R: `apply_relocation` as "compute a patch, write it"; psABI formulas; x86 decoding |
| C30 | A relocation changes only its own field | Reloc | D/R: `apply_relocation` as "compute a patch, write it"; psABI formulas; x86 decoding |
| C31 | Relocation overflow is never silent | Reloc | N + partial: the psABI formula outside the wrong cases |
| C32 | GOT load relaxation preserves the loaded address | Reloc | D/R: `apply_relocation` as "compute a patch, write it"; psABI formulas; x86 decoding |
| C33 | Indirect call/jump relaxation preserves the target | Reloc | N + partial: the psABI formula outside the wrong cases |
| C34 | Relocation types outside the supported set never corrupt data | Reloc | D/R: `apply_relocation` as "compute a patch, write it"; psABI formulas; x86 decoding |
| C35 | Relocations with disjoint fields commute | Reloc | D/R: `apply_relocation` as "compute a patch, write it"; psABI formulas; x86 decoding |
| C36 | Section ordering is a consistent total preorder | Layout | D; sorting lemmas |
| C37 | Program header count is predicted exactly | Layout, Writer | I over the section list in the layout loop, for every history of calls with `FlagsOk` |
| C38 | Allocated sections do not overlap in memory | Layout, Writer | N + partial: I over the section list in the layout loop |
| C39 | File ranges of sections do not overlap and match their place in the file | Writer.writeToDisk | I over the sections; R to the section table read from the file |
| C40 | LOAD segments are page aligned, ascending and disjoint | Layout, Writer | I over the section list in the layout loop, for every history of calls with `FlagsOk` |
| C41 | Every allocated section is covered by a LOAD segment with its permissions | Layout, Writer | N + partial: I over the section list in the layout loop |
| C42 | The loader maps each section's bytes at its address | Layout, Writer | N + partial: I over the section list in the layout loop |
| C43 | Sections and input chunks respect their alignment | Layout, Writer | N + partial: I over the section list in the layout loop |
| C44 | PT_INTERP and PT_DYNAMIC describe their sections | Layout, Writer | N + partial: I over the section list in the layout loop |
| C45 | PT_PHDR describes the program header table and is covered by the first LOAD | Layout, Writer | I over the section list in the layout loop, for every history of calls with `FlagsOk` |
| C46 | ELF header round trip | Serialize | A: round trip through the decoders |
| C47 | Program, section, relocation and dynamic entries round trip | Serialize | A: round trip through the decoders |
| C48 | Section header table location and count | Writer.writeToDisk | I over the sections; R to the section table read from the file |
| C49 | Section names resolve | Writer.writeToDisk | I over the sections; R to the section table read from the file |
| C50 | Input sections are merged by name, complete and in order | Writer.addSection | N + partial: I over histories, carried through all stages to the bytes of the file |
| C51 | Dynamic section is complete, sized exactly and terminated | Writer, Layout | I over histories; R to the dynamic table read from the file |
| C52 | DT_NEEDED entries are unique and lead with the interpreter | Writer, Layout | I over histories; R to the dynamic table read from the file |
| C53 | Symbol address is section chunk address plus offset | Section, Writer | N + partial: I over histories and chunks; symbol table read from the file |
| C54 | Symbols are relocated exactly once | Section, Writer | N + partial: I over histories and chunks; symbol table read from the file |
| C55 | Zero-fill sections of different objects do not alias | Section, Writer | N + partial: chunk ranges are disjoint for sections with data |
| C56 | init/fini array bounds | Writer.handleSpecialSymbols | N + partial: start symbols, and end symbols with one input |
| C57 | Entry point | Writer | I over histories and stages; read from the file |
| C58 | _GLOBAL_OFFSET_TABLE_ is the address of .got.plt | Writer | I over histories and stages; read from the file |
| C59 | A successful link leaves nothing undefined | Linker | I over the driver; the list of undefined names is characterised by the inputs |
| C60 | Resolution loop terminates | Linker | a measure on archives, members and libraries decreases (`TruthfulIndexes`); the second theorem shows that the condition is needed |
| C61 | Archive members are linked only when they provide a needed symbol | Linker | N + partial: I over the calls of the resolution loop |
| C62 | Imported symbols are exported by a needed library | Linker | N + partial: I over the calls of the resolution loop |
| C63 | --no-as-needed records every library | Linker | N + partial: I over the calls of the resolution loop |
| C64 | Relocations are applied to the section the relocation section names | Linker | N + partial: I over the calls of the resolution loop |
| C65 | A failed link destroys the previous output | Linker, Disk | D over the driver with a file system |
| C66 | Output bytes do not depend on hash-map order | Writer, Linker | N; witness; two runs related stage by stage (Lemmas/Order*): same layout, symbols, bindings and contents up to the order of tables; equality of stages for objects alone |
| C67 | Command line options | Cli | I over argument lists, D |
| C68 | --build-id optional argument | Cli | I over argument lists, D |
| C69 | --hash-style is accepted as documented | Cli | N + partial |
| C70 | Hash style selects the emitted tables | Writer | I over histories; read from the file |
| C71 | Input file classification | Cli | I over argument lists, D |
| C72 | Library search honours -L order | Cli | N + partial |
| C73 | Linker script parsing terminates | Script | N + partial: termination by input length; R to the grammar |
| C74 | No self-deadlock on section locks | Locks | N + partial: the lock traces of every call and stage, for every history; D over traces |
| C75 | Layout arithmetic | Layout | A |
| C76 | Duplicate-definition errors name a defining file | SymbolTable, Writer | N + partial: I over addition histories |
| C77 | GOT32 relocations compute the psABI value | Reloc | N + partial: the psABI formula outside the wrong cases |
| C78 | TPOFF32 relocations compute a thread pointer offset | Reloc | N + partial: the psABI formula outside the wrong cases |
| C79 | Linker scripts end | Cli | N + partial: scripts that do not include themselves; inputs of the command line |
| C80 | No input is dropped silently | Cli | N + partial: scripts that do not include themselves; inputs of the command line |
| C81 | Well-formed linker scripts are read as written | Script | N + partial: termination by input length; R to the grammar |
| C82 | Section references name the right section | Writer, Section | N + partial: identities of sections through sorting; read from the file |
| C83 | Errors are justified by the input they name | Linker | I over the driver: every error traced to the input it names |
| C84 | The duplicate definition error names the file of the first definition | Linker, SymbolTable | N + partial: the named file mentions the symbol |
| C85 | A process sees the section contents at the section addresses | Writer, Layout | N + partial: R to the process memory of `Spec/Loader` |
| C86 | The interpreter of the output is the one the options name | Writer, Layout | R: the PT_INTERP header and bytes read from the file |
| C87 | The dynamic linker finds the dynamic table | Writer, Layout | N + partial: R to the process memory of `Spec/Loader` |
| C88 | Direct references reach their symbol | Writer, Section, Reloc | I over histories, chunks and stages; R: field read from the file against the symbol table read from the file |
| C89 | References to sections reach the merged section | Writer, Section, Reloc | I over histories, chunks and stages; R: field read from the file against the symbol table read from the file |
| C90 | Calls of imported functions reach their PLT entry | Writer, Plt, Reloc | C88's field equations composed with the slot invariants and x86 decoding |
| C91 | GOT loads of imported symbols reach their slot | Writer, Plt, Reloc | C88's field equations composed with the slot invariants and x86 decoding |
| C92 | Direct references to imported symbols reach the symbol | Writer, Plt, Reloc | N + partial: data objects, through the COPY relocation read from the file |
| C93 | Relaxed GOT loads compute the address of the symbol | Writer, Section, Reloc | I over histories, chunks and stages; R: field read from the file against the symbol table read from the file |
| C94 | The dynamic loader finds every dynamic symbol with .hash | Writer, HashTables | R: `Spec/Lookup` on the bytes of `.hash`, `.dynsym`, `.dynstr`; C16 carried through the stages |
| C95 | The dynamic loader finds every dynamic symbol with .gnu.hash | Writer, HashTables | N + partial: the same for `.gnu.hash` with contiguous buckets or fewer than eight entries |
| C96 | Linking well-formed inputs of moderate size never crashes | Writer | N + partial: every stage is shown to succeed, with bounds on addresses and symbol values that follow from the sizes in the calls |
| C97 | No number is cut off in the output | Writer, Serialize | bounds of C96 carried to every field, then the round trip of C46-C48 |
| C98 | Linking well-formed files of moderate size never crashes | Linker, Writer | the calls made for the files are shown to satisfy the hypotheses of C96/C97; the driver's own panics are shown unreachable by following each stage of the resolution |
| C99 | The dynamic loader finds the relocations and symbols | Writer, Layout, Dynamic | N + partial: `Spec/Runtime` (a loader that knows program headers and memory only) against C51, C85, C87 |
| C100 | The program can be started | Writer, Layout, Plt, Reloc | N + partial: `Spec/Runtime` applies the dynamic relocations to the memory of C85; frame and last-write lemmas over the list of relocations, composed with C90, C91, C38, C40, C41 |
| C101 | Calls of library functions reach the function at run time | Writer, Layout, Plt, Reloc | N + partial: `Spec/Runtime` applies the dynamic relocations to the memory of C85; frame and last-write lemmas over the list of relocations, composed with C90, C91, C38, C40, C41 |
| C102 | Loads through the GOT give the address at run time | Writer, Layout, Plt, Reloc | N + partial: `Spec/Runtime` applies the dynamic relocations to the memory of C85; frame and last-write lemmas over the list of relocations, composed with C90, C91, C38, C40, C41 |
| C103 | Code and initialised data are intact when the program starts | Writer, Layout, Plt, Reloc | N + partial: `Spec/Runtime` applies the dynamic relocations to the memory of C85; frame and last-write lemmas over the list of relocations, composed with C90, C91, C38, C40, C41 |
| C104 | A run that reports an executable has written it | Process, Cli, Disk | `Spec/Process` (what the arguments ask for) against `main`: case analysis of how it ends, induction over the inputs, C65, C67, C71, C72. C106, C107: N + partial |
| C105 | A run that fails says why, and changes at most the output file | Process, Cli, Disk | `Spec/Process` (what the arguments ask for) against `main`: case analysis of how it ends, induction over the inputs, C65, C67, C71, C72. C106, C107: N + partial |
| C106 | Mistakes on the command line do not crash the program | Process, Cli, Disk | `Spec/Process` (what the arguments ask for) against `main`: case analysis of how it ends, induction over the inputs, C65, C67, C71, C72. C106, C107: N + partial |
| C107 | --help prints the help text | Process, Cli, Disk | `Spec/Process` (what the arguments ask for) against `main`: case analysis of how it ends, induction over the inputs, C65, C67, C71, C72. C106, C107: N + partial |
| C108 | -lNAME is the library libNAME | Process, Cli | N + partial: induction over the directories |
| C109 | An executable has an entry point | Process, Linker | N + partial: C57; folding over the inputs with and without the file |
| C110 | Every ELF input is linked or reported | Process, Linker | N + partial: C57; folding over the inputs with and without the file |
| C111 | Every section of every linked file is in the output at its place | Linker, Writer | `Spec/Files` (places computed from the object files alone) against C50, C53, C54, C88-C91, C93, C100-C103: the order of the calls for a file is the order of its sections and symbols (C57), so sums over calls are sums over files |
| C112 | References between files lead to the definition | Linker, Writer | `Spec/Files` (places computed from the object files alone) against C50, C53, C54, C88-C91, C93, C100-C103: the order of the calls for a file is the order of its sections and symbols (C57), so sums over calls are sums over files |
| C113 | References to what no file defines lead to the library's symbol | Linker, Writer | `Spec/Files` (places computed from the object files alone) against C50, C53, C54, C88-C91, C93, C100-C103: the order of the calls for a file is the order of its sections and symbols (C57), so sums over calls are sums over files |
| C114 | A started program is the program in the files | Linker, Writer | `Spec/Files` (places computed from the object files alone) against C50, C53, C54, C88-C91, C93, C100-C103: the order of the calls for a file is the order of its sections and symbols (C57), so sums over calls are sums over files |
| C115 | Sections keep their permissions | Writer, Layout | N + partial for C115 and C117: `Spec/Perms`; an invariant of the layout loop says that the permissions of every segment are those of an allocated section placed in it (`Lemmas/Perms`), C41 the converse; C111 for the place of a section |
| C116 | No segment is writable and executable unless an input section is | Writer, Layout | N + partial for C115 and C117: `Spec/Perms`; an invariant of the layout loop says that the permissions of every segment are those of an allocated section placed in it (`Lemmas/Perms`), C41 the converse; C111 for the place of a section |
| C117 | Thread-local data and stack permissions have program headers | Writer, Layout | N + partial for C115 and C117: `Spec/Perms`; an invariant of the layout loop says that the permissions of every segment are those of an allocated section placed in it (`Lemmas/Perms`), C41 the converse; C111 for the place of a section |
| C118 | Constructors and destructors run | Writer, Linker | N + partial: `Spec/Ctors`; C51 for the dynamic section as the loader reads it, C111/C112 for place and value of an entry, C103 for memory |
| C119 | A shared library that is not needed changes nothing | Linker | R: `Spec/Unused` compares two links; induction over the rounds of resolution with the state of C57/C59 (`Lemmas/Unused`): in every round the names looked for are left open by an input, so the further file is read and nothing else happens |
| C120 | An archive that is not needed changes nothing | Linker | R: `Spec/Unused` compares two links; induction over the rounds of resolution with the state of C57/C59 (`Lemmas/Unused`): in every round the names looked for are left open by an input, so the further file is read and nothing else happens |
| C121 | Absolute symbols keep their values | Writer, Linker | A (C121), N + partial: `Spec/Fixed`; the call that defines the symbol decides it (C53 with any section), references through C35/C112; all dynamic relocations are those of C87 |
| C122 | Common symbols get storage | Writer, Linker | A (C121), N + partial: `Spec/Fixed`; the call that defines the symbol decides it (C53 with any section), references through C35/C112; all dynamic relocations are those of C87 |
| C123 | Indirect functions are resolved | Writer, Linker | A (C121), N + partial: `Spec/Fixed`; the call that defines the symbol decides it (C53 with any section), references through C35/C112; all dynamic relocations are those of C87 |
| C124 | Weak references may stay unresolved | Linker | N + partial: `Spec/Fixed`; the state of the resolution of C57/C59 keeps the name undefined until the end, C124_weak_partial from C59 |
| C125 | Relocations without a symbol are applied | Writer, Linker | N + partial: C111 for bytes that no relocation with a symbol patches; C52 for the entries of the dynamic section, C62 |
| C126 | Libraries are asked for by their own names | Writer, Linker | N + partial: C111 for bytes that no relocation with a symbol patches; C52 for the entries of the dynamic section, C62 |
| C127 | The executable does not depend on where the files are | Linker | R: `Spec/Rename`; every function of the writer and of the driver commutes with renaming the paths in its state (`Lemmas/Rename`), up to the paths in errors |
| C128 | The executable names the dynamic linker and the libraries of the command line | Process, Linker | A: `Spec/Asked` says what the last part of a path is; C104 for the linker of a run, C86 for the interpreter, C62/C63 for the entries of the dynamic section |
| C129 | The first library that has a symbol provides it, and libraries come before archives | Linker | R: as C119/C120, with the lemma of C62 about which names are left after the libraries before |
| C130 | Libraries find the program's symbols | GoodLink, LinkRun | N: places of the dynamic symbols before and after handle_special_symbols; what is imported was needed by an object (Calls) |
| C131 | Functions that several files define | LinkRun | N: `Lemmas/Twice`: the value of a symbol is the sum over all chunks that note it; two calls give two chunks (Calls) |
| C132 | Variables without initial value are zero when the program starts | GoodLink, LinkRun | N: C85 for zero-fill sections, the frame of the relocations as for C103; all zero-fill pushes of one name have the reference of the first (Props/Zero) |
| C133 | Options that ask for something in the output are honoured | Process, LinkRun | N: option sets that differ only in the ignored fields, kept through the argument reader, the script loop and the linker; section names and program header kinds of a LinkRun |
| C134 | Symbols have the strictest visibility that a file gives them | LinkRun | N: `Lemmas/Strongest`: merging mentions keeps binding, type, size and visibility of the first strongest one, and layout changes none of them; C113 for hidden references |
| C135 | A link with two global definitions of a name fails | Driver | N: C07 on the symbol additions of the calls of a link; two different symbols of the linked files are two different calls |
| C136 | The output can be run if and only if the link succeeded | Disk | N: case analysis of `linkOn` with permission bits and owners |
| C137 | The first archive that has a symbol provides it | Driver, LinkRun | N: `FromArchive` of the calls of a link; two schedules of one link for the violation |
| C138 | Programs bind to the versions of library symbols they were linked with | LinkRun | N: the tags of C51 and the section names of a LinkRun; `dynTable_eq` for what the loader reads |
| C139 | Error messages tell different failures apart | Report | N: the printed text (joined list, backquotes, quoting by `{:?}`) is injective on plain names |
| C140 | Complete programs link | LinkRun, Linker | N + partial: `Spec/Complete`; C60 (the link ends), C98 (it does not crash), C83 (every other error is justified by the files) and C59 (what is listed is undefined), and an invariant of the last stages: a symbol attached to a named section, a bound of an array that is there (`Lemmas/ArrayBounds`) and `_GLOBAL_OFFSET_TABLE_` are defined at the end. With archives also an invariant of the driver (`Lemmas/OnceMembers`): a linked file has settled the names it defines globally, so no member is linked twice. `C140_reached_partial` is the same theorem for the world `reachedEnv`, carried over with `link_reached`. With libraries (`Lemmas/LibOnce`, `Spec/CompleteLib`) an invariant of the driver says that each entry of a library is used at most once, which bounds the size of the calls by the size of the files; `Lemmas/LibMembers` has the same with archives |
| C141 | The order of the objects does not decide whether a program links | LinkRun, Linker | N + partial: all requirements of C140 are invariant under permutations of the objects; what a successful link needs is defined (the converse of C140), so C140 applies to the other order |
| C142 | A run leaves its input files alone | Process, Disk | N + partial: the output is created first, so the object reads as empty and no link can succeed; otherwise by cases on the end of the run (C104, C105) |
| C143 | What is not for the executable is left out | LinkRun | N + partial: from C111 (every copied section is at its place) and the disjointness of the places; the section names of the output are those of the writer and those pushed |
| C144 | Object files for other machines are rejected | LinkRun, Linker | N + partial: nothing in the requirements of C140 is about the header, so C140 gives the link and C111 the sections; the header of the output from the reader lemma |
| C145 | Missing and damaged inputs are reported | Linker | N + partial: every round reads and parses all libraries and archives, so the inputs are never gathered; C98 and C83 give the error |
| C146 | The previous output has no influence | Disk | R: the output reads as empty in both file systems after File::create; induction-free comparison of the two links |
| C147 | Private symbols stay private | Linker | N: all references to a name go through one entry (C88); the part that holds from C112 and that a defined name is never looked up in libraries |
| C148 | The gaps in the executable hold zeros | Writer | I: the parts are written one after the other, and only zeros are written between them. |
| C149 | Naming an archive again changes nothing | Cli, Process | R: the further name is one more input of the search, which inserts the canonical path into a set that has it already. |
| C150 | Running the same command again gives the same result | Cli, Process | N/R: the search is shown to ask the file system about the tried paths only, and the link to read its inputs only (C127 with the identity). |
| C151 | Contents do not influence layout | Linker | R: two runs on inputs of the same shape |
| C152 | Archive members that nothing asks for have no influence | Linker | R: `Spec/Reached`; two worlds whose archives answer alike when asked for a name some file needs give equal links (induction over the rounds with the driver's state), then the world with nothing else in the indexes is compared with both |
| C153 | Command lines that name a linkable program build it | Process | R: the arguments lead to a link (C67 and the search), the linker is the one the words ask for (C104), and no archive is given twice, so that C140 applies; the outcome of the link is the outcome of the run |
| C154 | A new version of a library gives the same executable | Driver | R: what is taken from a library is a function of the entries of the asked name; the names asked for are those of C152; induction over libraries and rounds |
| C155 | A failure while writing is reported and leaves no damaged executable | Disk | N + partial: the pieces that are written one after the other, joined, are the file; induction over the pieces |
| C156 | More libraries do not break a link | Linker, Writer | The calls for the objects are the same in both links. A symbol that is undefined at the end of the second link has the same entry before the libraries were searched, is in no library, is in no section and is no bound of an array section that is there (`Lemmas/ArrayBounds`), so it was undefined in the first link too. With archives as for C157: all that is needed is provided, so the theorem about complete programs (C140) applies to the second link, which can ask the archives for fewer names (C152). |
| C157 | The order of archives does not decide whether a program links | LinkRun, Linker | The files that are reached and the members that are asked for are the same for both orders. In a successful link every name that a linked file needs is defined by a linked file, so it is defined in the objects, in a library or in the index of an archive, and the theorem about complete programs (C140) applies to the other order. |
| C158 | Objects and libraries come before archives | Linker, Writer | With such an archive the same files are reached and the same names are asked for, so both links are links in the world in which the archive has an empty index (C152), where it is not used (C129). |
| C159 | Object files can be put into an archive | LinkRun, Linker | `Spec/Archived`. In the first link every name that an object needs is defined by an object or a library; in the second one it is then defined by a remaining object or a library, or is in the index, and the theorem about complete programs (C140) applies. |
| C160 | The executable is hardly larger than its inputs | LinkRun, Linker, Full | `Spec/Size`. The section headers are at the end of the file and their offset is bounded by what the calls to the writer bring (as for C98); the calls bring no more than the files have, since no object or member is loaded twice. |
| C161 | Zero-fill sections take no room in the executable | GoodRun | Existing specification (`Spec/File`, `Spec/Loader`). Induction over the layout loop, with the number of segments counted in advance (C37). |

## Trusted base

* The Lean 4.33 kernel and the three standard axioms below. No `sorry`, no axioms of our own, no
  `native_decide`, no `bv_decide`. `decide +kernel` lets the kernel evaluate the example links.
* The reading of the Rust source, as cited definition by definition.
* Third-party crates as described in the comments of the model: goblin's structures and constants,
  byteorder, the sequencing and backtracking rules of `combine` (`Model/Script`), and `parking_lot`: its read
  lock may block while the same thread holds a write lock, its write lock while the same thread holds
  any lock (`Model/Locks`).
* The Rust standard library: hash maps hold each key once and iterate in some order, `sort_unstable_by`
  returns a sorted permutation if the comparison is a preorder (C36).
* The specifications in `Spec/*` as renderings of the ELF, psABI and x86-64 documents and of the
  behaviour of the Linux loader and glibc.

Not modelled:

* Parsing of ELF files and archives (goblin): inputs are the parsed structures, or a parse failure.
* Log output, except for the locks its arguments take (C74).
* I/O errors while writing other than lack of room (`Model/Full`), and inputs that fail to be read half-way.
* Change of input files during a link, and two paths that name one file (C65).
* Memory exhaustion, and overflow of `u64` sums.
* Concurrency: the linker is single threaded.

## Axioms per theorem

`p` is `propext`, `c` is `Classical.choice`, `q` is `Quot.sound`; as printed by `#print axioms`.

| theorem | axioms |
|---|---|
| `C01_elf_hash_is_gabi` | p c q |
| `C02_gnu_hash_is_polynomial` | p q |
| `C03_interning_stable_injective` | p c q |
| `C04_image_reads_back` | p c q |
| `C05_lookup_inverts_interning` | p c q |
| `C06_image_length` | p c q |
| `C07_two_strong_definitions_rejected` | p c q |
| `C08_no_spurious_duplicates_violated` | p |
| `C08_no_spurious_duplicates_partial` | p c q |
| `C09_binding_is_strongest` | p c q |
| `C10_defined_stays_defined_violated` | p |
| `C10_defined_stays_defined_partial` | p c q |
| `C11_definition_data_violated` | p |
| `C11_definition_data_partial` | p c q |
| `C11_late_violated` | p c q |
| `C12_locals_separate_violated` | p |
| `C12_locals_separate_partial` | p q |
| `C13_num_locals_violated` | none |
| `C13_num_locals_partial` | p c q |
| `C13_first_nonlocal_partial` | p c q |
| `C14_order_partial` | p q |
| `C14_null_first_when_no_locals` | p c q |
| `C14_order_violated` | p q |
| `C15_image_decodes` | p c q |
| `C15_keys` | p q |
| `C16_sysv_lookup` | p c q |
| `C17_gnu_lookup_violated` | p q |
| `C17_gnu_lookup_partial` | p c q |
| `C18_bloom_no_false_negatives` | p c q |
| `C19_sysv_layout` | p c q |
| `C19_gnu_layout` | p c q |
| `C20_plt_slots` | p c q |
| `plt_in_file` | p c q |
| `C21_got_slots` | p c q |
| `got_slots_distinct` | p c q |
| `C22_tlsgd_pair_violated` | p q |
| `C22_tlsgd_pair_partial` | p c q |
| `glob_dat_in_file` | p c q |
| `C26_local_got_slot_violated` | p q |
| `C26_local_slot_partial` | p c q |
| `scan_only_redirects_calls` | p c q |
| `copies_in_file` | p c q |
| `C29_psabi_value` | p c q |
| `C29_in_range_applies` | p c q |
| `C30_only_own_field` | p c q |
| `C31_violated` | p |
| `C31_overflow_stops_partial` | p c q |
| `C32_load_becomes_lea` | p c q |
| `C32_every_register` | p c q |
| `C33_violated` | p |
| `C33_direct_branch_partial` | p c q |
| `C34_unsupported_types` | p c q |
| `C35_order_irrelevant` | p c q |
| `C35_each_field` | p c q |
| `C36_compare_total_preorder` | p c q |
| `C36_section_order` | p c q |
| `C37_program_headers_fit` | p c q |
| `C38_copyrel_overlap_violated` | p q |
| `C38_sections_disjoint_partial` | p c q |
| `C39_file_ranges` | p c q |
| `C40_load_segments` | p c q |
| `C41_copyrel_outside_violated` | p q |
| `C41_covered_partial` | p c q |
| `C42_mapped_violated` | p q |
| `C42_mapped_partial` | p c q |
| `C43_section_alignment_violated` | p q |
| `C43_input_alignment_violated` | p q |
| `C43_section_alignment_partial` | p c q |
| `C44_interp_address_violated` | p q |
| `C44_interp_dynamic_partial` | p c q |
| `C45_phdr` | p c q |
| `C46_header_roundtrip` | p c q |
| `C47_entries_roundtrip` | p c q |
| `C48_section_table` | p c q |
| `C49_names` | p c q |
| `C50_merged_violated` | p q |
| `C50_merged_partial` | p c q |
| `C50_unrelocated_partial` | p c q |
| `C51_dynamic` | p c q |
| `C52_needed` | p c q |
| `C53_violated` | p c q |
| `C53_partial` | p c q |
| `C54_violated` | p c q |
| `C54_partial` | p c q |
| `C55_violated` | p c q |
| `C55_every_violated` | p c q |
| `C55_partial` | p c q |
| `C56_end_violated` | p c q |
| `C56_partial` | p c q |
| `C57_entry` | p c q |
| `C58_got` | p c q |
| `Linker.C59_resolved` | p c q |
| `Linker.C59_listed` | p c q |
| `Linker.C60_terminates` | p c q |
| `C60_untruthful_diverges` | p q |
| `C61_moment_violated` | p c q |
| `Linker.C61_needed_partial` | p c q |
| `C62_defined_violated` | p c q |
| `Linker.C62_needed_partial` | p c q |
| `Linker.C63_flag_violated` | p q |
| `C63_needed_violated` | p c q |
| `Linker.C63_used_partial` | p c q |
| `C64_section_violated` | p c q |
| `Linker.C64_section_partial` | p c q |
| `Linker.C65_error` | p q |
| `Linker.C65_ok` | p c q |
| `Linker.C65_own_input` | p c q |
| `C66_order_violated` | p q |
| `C66_layout_partial` | p c q |
| `C66_symbols_partial` | p c q |
| `C66_bindings_partial` | p c q |
| `C66_contents_partial` | p c q |
| `C66_objects_partial` | p c q |
| `Linker.C66_files_partial` | p c q |
| `Cli.C67_accepted` | p c q |
| `Cli.C67_meaning` | p c q |
| `Cli.C67_missing_value` | p c q |
| `Cli.C68_build_id` | p c q |
| `Cli.C68_last_build_id` | p c q |
| `Cli.C68_values` | p q |
| `Cli.C69_hash_style_violated` | p |
| `Cli.C69_hash_style_partial` | p q |
| `C70_hash_style` | p c q |
| `Cli.C71_file_type` | p c q |
| `Cli.C72_first_directory_violated` | p |
| `Cli.C72_order_violated` | p |
| `Cli.C72_search_partial` | p q |
| `Script.C73_termination_violated` | p |
| `Script.C73_termination_partial` | p c q |
| `C74_locks_partial` | p c q |
| `Hist.computeLocks_calm` | p c q |
| `C74_trace_violated` | p c q |
| `C74_named_violated` | p q |
| `C75_round_to_least` | p c q |
| `C76_duplicate_error_names_a_definition_violated` | none |
| `C76_duplicate_error_names_a_definition_partial` | p c q |
| `C77_violated` | p |
| `C77_got32_partial` | p c q |
| `C78_violated` | p |
| `C78_tpoff32_partial` | p c q |
| `Cli.C79_scripts_end_violated` | p q |
| `Cli.C79_scripts_end_partial` | p c q |
| `Cli.C80_script_inputs_violated` | p q |
| `Cli.C80_inputs_partial` | p |
| `Script.C81_group_words_violated` | p |
| `Script.C81_group_words_partial` | p q |
| `C82_links_violated` | p q |
| `C82_links_partial` | p c q |
| `Linker.C83_blame` | p c q |
| `C84_reference_violated` | p q |
| `Linker.C84_reference_partial` | p c q |
| `C85_memory_violated` | p c q |
| `C85_contents_partial` | p c q |
| `C85_zero_partial` | p c q |
| `C86_interpreter` | p c q |
| `C87_dynamic_violated` | p c q |
| `C87_dynamic_partial` | p c q |
| `C88_direct` | p c q |
| `C88_to_definition` | p c q |
| `C89_section` | p c q |
| `C90_call` | p c q |
| `C91_got_load` | p c q |
| `C92_direct_import_violated` | p c q |
| `C92_copied_partial` | p c q |
| `C93_relaxed_load` | p c q |
| `C94_sysv_find` | p c q |
| `C95_gnu_find_violated` | p q |
| `C95_gnu_find_partial` | p c q |
| `C96_no_crash_violated` | p q |
| `C96_no_crash_partial` | p c q |
| `C97_exact` | p c q |
| `C97_link` | p c q |
| `C97_references` | p c q |
| `Linker.C98_resolution` | p c q |
| `Linker.C98_no_crash` | p c q |
| `Linker.C98_objects` | p c q |
| `Linker.C98_libraries` | p c q |
| `Linker.C98_whole` | p c q |
| `C99_tables_violated` | p c q |
| `C99_tables_partial` | p c q |
| `C100_starts_violated` | p c q |
| `C100_starts_partial` | p c q |
| `C101_call_partial` | p c q |
| `C102_got_violated` | p c q |
| `C102_got_partial` | p c q |
| `C103_data_violated` | p c q |
| `C103_contents_partial` | p c q |
| `Cli.C104_success` | p c q |
| `Cli.C104_output` | p c q |
| `Cli.C105_failure` | p c q |
| `Cli.C106_directory_violated` | p q |
| `Cli.C106_loader_violated` | p c q |
| `Cli.C106_crash_partial` | p c q |
| `Cli.C107_help_violated` | p q |
| `Cli.C107_help_partial` | p c q |
| `Cli.C108_library_violated` | p q |
| `Cli.C108_library_partial` | p c q |
| `Cli.C109_entry_violated` | p q |
| `Linker.C109_entry_partial` | p c q |
| `Linker.C110_ignored_violated` | p q |
| `Linker.C110_linked_partial` | p q |
| `C111_contents` | p c q |
| `C112_symbol` | p c q |
| `C112_reference` | p c q |
| `C112_section` | p c q |
| `C112_relaxed_load` | p c q |
| `C113_call` | p c q |
| `C113_got_load` | p c q |
| `C114_starts_partial` | p c q |
| `C114_call_partial` | p c q |
| `C114_got_partial` | p c q |
| `C114_contents_partial` | p c q |
| `C115_permissions_violated` | p c q |
| `C115_permissions_partial` | p c q |
| `C116_write_xor_execute` | p c q |
| `C117_kinds_violated` | p c q |
| `C117_kinds_partial` | p c q |
| `C118_constructors_violated` | p c q |
| `C118_array_partial` | p c q |
| `C118_entry_partial` | p c q |
| `Linker.C119` | p c q |
| `Linker.C120` | p c q |
| `C121_symbol` | p c q |
| `C121_reference` | p c q |
| `C122_common_violated` | p c q |
| `C122_common_partial` | p c q |
| `C123_indirect_violated` | p c q |
| `C123_library_partial` | p c q |
| `C124_weak_violated` | p c q |
| `C124_weak_partial` | p c q |
| `C125_symbolless_violated` | p c q |
| `C125_zero_partial` | p c q |
| `C126_soname_violated` | p c q |
| `C126_soname_partial` | p c q |
| `Linker.C127_moved` | p c q |
| `Linker.C127_outcomes` | p c q |
| `Linker.C127_executable` | p c q |
| `Cli.C128_interpreter` | p c q |
| `Cli.C128_needed` | p c q |
| `Cli.C128_library` | p q |
| `Linker.C129_library` | p c q |
| `Linker.C129_archive` | p c q |
| `Linker.C129_again` | p c q |
| `C130_offers` | p c q |
| `C130_own_violated` | p c q |
| `C130_copy_partial` | p c q |
| `C131_symbol_violated` | p c q |
| `C131_reference_violated` | p c q |
| `C131_same_partial` | p c q |
| `C132_zero_violated` | p c q |
| `C132_section_partial` | p c q |
| `C132_variable_partial` | p c q |
| `C133_sections_violated` | p c q |
| `Cli.C133_silent_partial` | p q |
| `C134_strictest_violated` | p c q |
| `C134_strictest_partial` | p c q |
| `C134_every_partial` | p c q |
| `C134_hidden_violated` | p c q |
| `Linker.C135_one_definition_violated` | p c q |
| `Linker.C135_one_definition_partial` | p c q |
| `Linker.C135_objects_partial` | p c q |
| `Linker.C136_success` | p q |
| `Linker.C136_failure_violated` | p q |
| `Linker.C136_failure_partial` | p q |
| `Linker.C136_owner_violated` | p q |
| `Linker.C136_owner_partial` | p q |
| `Linker.C137_first_archive_violated` | p c q |
| `Linker.C137_first_archive_partial` | p c q |
| `C138_versions_violated` | p c q |
| `C138_loader_violated` | p c q |
| `C138_tags_partial` | p c q |
| `Cli.C139_message_violated` | p q |
| `Cli.C139_message_partial` | p q |
| `Linker.C140_weak_violated` | p q |
| `Linker.C140_override_violated` | p q |
| `Linker.C140_complete_partial` | p c q |
| `Linker.C140_objects_partial` | p c q |
| `Linker.C140_linked_partial` | p c q |
| `Linker.C140_archives_partial` | p c q |
| `Linker.C140_reached_partial` | p c q |
| `Linker.C140_libraries_partial` | p c q |
| `Linker.C140_whole_partial` | p c q |
| `Linker.C141_order_violated` | p c q |
| `Linker.C141_order_partial` | p c q |
| `Linker.C141_libraries_partial` | p c q |
| `Linker.C142_inputs_violated` | p c q |
| `Cli.C142_run_violated` | p q |
| `Cli.C142_inputs_partial` | p c q |
| `C143_comdat_violated` | p c q |
| `C143_marked_violated` | p c q |
| `C143_marked_partial` | p c q |
| `Linker.C144_machine_violated` | p c q |
| `C144_machine_partial` | p c q |
| `Linker.C145_library_violated` | p q |
| `Linker.C145_reported_partial` | p c q |
| `Linker.C146_previous` | p q |
| `Linker.C146_again` | p q |
| `C147_shared_violated` | p c q |
| `C147_mixed_violated` | p c q |
| `C147_visible_violated` | p c q |
| `C147_private_partial` | p c q |
| `C148_padding` | p c q |
| `Cli.C149_archive` | p c q |
| `Cli.C149_other_name` | p c q |
| `Cli.C150_again_violated` | p q |
| `Cli.C150_inputs_partial` | p c q |
| `Cli.C150_again_partial` | p c q |
| `Linker.C151_layout` | p c q |
| `Linker.C151_failure` | p c q |
| `Linker.C151_tables` | p c q |
| `Linker.C152_unasked` | p c q |
| `Cli.C153_build` | p c q |
| `Linker.C154_interface` | p c q |
| `Linker.C155_full_violated` | p q |
| `Linker.C155_written_partial` | p c q |
| `Linker.C155_room` | p q |
| `Linker.C156_more` | p c q |
| `Linker.C156_archives` | p c q |
| `Linker.C157_shuffled` | p c q |
| `Linker.C158_override` | p c q |
| `Linker.C159_archived` | p c q |
| `Linker.C160_size` | p c q |
| `Linker.C160_room` | p c q |
| `C161_extent` | p c q |
