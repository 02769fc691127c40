import Verif.Model.Layout
import Verif.Model.HashTables
import Verif.Model.Options
/-! # `Writer` (`src/elf.rs`) up to and including `compute_sections` and `write_to_disk`

Not modelled: the log output (the arguments of `log::trace!` are lock acquisitions, see
`Model/Locks`). The file permissions are in `Model/Disk`, and errors while writing (an `unwrap`) in `Model/Full`.
-/
namespace Dld

/-- Iteration orders of the hash maps that live as long as the writer, and the order the unstable
sort gives to equal sections. Each map's order is a function of its keys (in insertion order):
iterating twice without inserting in between gives the same order. -/
structure Sched where
  symIter : List Nat → List Nat
  dynIter : List Nat → List Nat
  gotPltIter : List SymbolRef → List SymbolRef
  secOrder : List Section → List Section

/-- Every entry is visited exactly once. -/
structure Sched.Valid (s : Sched) : Prop where
  symIter : ∀ l, (s.symIter l).Perm l
  dynIter : ∀ l, (s.dynIter l).Perm l
  gotPltIter : ∀ l, (s.gotPltIter l).Perm l
  secOrder : ∀ l, (s.secOrder l).Perm l

/-- insertion order everywhere -/
def Sched.id : Sched :=
  { symIter := fun l => l, dynIter := fun l => l, gotPltIter := fun l => l, secOrder := fun l => l }

/-- `Writer` (`src/elf.rs` 142-170). The section pointers kept in fields are the constants `P.*`; the
payload of each synthetic section is a field here. -/
structure Writer where
  eh : Header
  dynRels : List Rela
  pltRels : List Rela
  sections : List Section
  gotLen : Nat
  gotPlt : List (SymbolRef × Nat)
  dynEntries : List (DynTag × Nat)
  programHeaders : List ProgramHeader
  pVaddr : Nat
  startPVaddr : Nat
  fileOffset : Nat
  shstr : StringTable
  symstr : StringTable
  dynstr : StringTable
  symtab : SymbolTable
  dynsym : SymbolTable
  plt : Plt
  copyRel : CopyRel
  hashTab : HashTable
  gnuTab : GnuHashTable
  /-- identity of the next section that will be allocated -/
  nextPtr : Nat
  deriving DecidableEq, Repr

/-! Identities of the sections `Writer::new` creates (`src/elf.rs` 324-346). -/
namespace P
def null : Nat := 0
def shstr : Nat := 1
def symstr : Nat := 2
def dynstr : Nat := 3
def interp : Nat := 4
def got : Nat := 5
def gotPlt : Nat := 6
def plt : Nat := 7
def sym : Nat := 8
def dynsym : Nat := 9
def dynamic : Nat := 10
def relaDyn : Nat := 11
def relaPlt : Nat := 12
def copyRel : Nat := 13
def hash : Nat := 14
def gnuHash : Nat := 15
/-- the first identity of a section made from an input -/
def first : Nat := 16
end P

namespace Writer

/-- the header `Writer::new` starts with (`src/elf.rs` 175-197) -/
def initHeader : Header :=
  { e_ident := ELFMAG ++ [ELFCLASS64, ELFDATA2LSB, UInt8.ofNat EV_CURRENT, 0, 0, 0, 0, 0, 0, 0, 0, 0]
    e_type := ET_EXEC, e_machine := EM_X86_64, e_version := EV_CURRENT, e_flags := 0
    e_ehsize := sizeofHeader, e_phentsize := sizeofProgramHeader, e_shentsize := sizeofSectionHeader
    e_phoff := sizeofHeader, e_entry := 0, e_phnum := 0, e_shnum := 0, e_shoff := 0
    e_shstrndx := 0 }

/-- whether the style includes the SysV table (`src/elf.rs` 288) -/
def wantsHash (h : HashStyle) : Bool := h == .sysv || h == .both

/-- whether the style includes the GNU table (`src/elf.rs` 297) -/
def wantsGnuHash (h : HashStyle) : Bool := h == .gnu || h == .both

/-- `get_or_create(name)` when asked for (`src/elf.rs` 288-289, 297-298) -/
def internIf (b : Bool) (t : StringTable) (name : Name) : Nat × StringTable :=
  if b then
    let (e, t) := t.getOrCreate name
    (e.offset, t)
  else (0, t)

/-- `Writer::new` (`src/elf.rs` 173-377). Panics when the dynamic linker's path has no file name.
`fill_header` of the synthetic payloads (`src/elf/string_table.rs` 95-101,
`src/elf/symbol_table.rs` 209-217, 315-324, 430-438, `src/elf/plt.rs` 24-28,
`src/elf/copy_rel.rs` 28-35) is inlined into the headers. Paths are taken to be UTF-8. -/
def new (opts : Options) : M Writer := do
  let names := StringTable.withName b!".shstrtab"
  let shstrName := names.sectionStrtab.getD 0
  let (eStrtab, names) := names.getOrCreate b!".strtab"
  let (eDynstr, names) := names.getOrCreate b!".dynstr"
  let loader := opts.dynamicLinker.full ++ [0]
  let interpFile ← unwrap opts.dynamicLinker.file
  let (eInterpFile, dynNames) := StringTable.default.getOrCreate interpFile
  let (eInterp, names) := names.getOrCreate b!".interp"
  let (eGot, names) := names.getOrCreate b!".got"
  let (eGotPlt, names) := names.getOrCreate b!".got.plt"
  let (ePlt, names) := names.getOrCreate b!".plt"
  let (eSymtab, names) := names.getOrCreate b!".symtab"
  let (eDynsym, names) := names.getOrCreate b!".dynsym"
  let (eDynamic, names) := names.getOrCreate b!".dynamic"
  let (eRelaDyn, names) := names.getOrCreate b!".rela.dyn"
  let (eRelaPlt, names) := names.getOrCreate b!".rela.plt"
  let (hashName, names) := internIf (wantsHash opts.hashStyle) names b!".hash"
  let (gnuHashName, names) := internIf (wantsGnuHash opts.hashStyle) names b!".gnu.hash"
  let (eCopyRel, names) := names.getOrCreate b!".copyrel"
  let aw := SHF_ALLOC ||| SHF_WRITE
  let hashSection : Section :=
    { ptr := P.hash, kind := .hash, link := some P.dynsym
      sh := { sh_name := u32 hashName, sh_type := SHT_HASH, sh_entsize := 4, sh_flags := SHF_ALLOC,
              sh_addralign := 4 } }
  let gnuHashSection : Section :=
    { ptr := P.gnuHash, kind := .gnuHash, link := some P.dynsym
      sh := { sh_name := u32 gnuHashName, sh_type := SHT_GNU_HASH, sh_entsize := 4,
              sh_flags := SHF_ALLOC, sh_addralign := 4 } }
  let sections : List Section :=
    [ { ptr := P.null, sh := {} },
      { ptr := P.shstr, kind := .shstr,
        sh := { sh_name := u32 shstrName, sh_type := SHT_STRTAB, sh_addralign := 1 } },
      { ptr := P.symstr, kind := .symstr,
        sh := { sh_name := u32 eStrtab.offset, sh_type := SHT_STRTAB, sh_addralign := 1 } },
      { ptr := P.dynstr, kind := .dynstr,
        sh := { sh_name := u32 eDynstr.offset, sh_type := SHT_STRTAB, sh_flags := SHF_ALLOC,
                sh_addralign := 1 } },
      { ptr := P.interp, chunks := [{ data := loader }],
        sh := { sh_name := u32 eInterp.offset, sh_type := SHT_PROGBITS, sh_flags := SHF_ALLOC,
                sh_size := loader.length, sh_addralign := 1 } },
      { ptr := P.got,
        sh := { sh_name := u32 eGot.offset, sh_type := SHT_PROGBITS, sh_flags := aw,
                sh_addralign := 8 } },
      { ptr := P.gotPlt,
        sh := { sh_name := u32 eGotPlt.offset, sh_type := SHT_PROGBITS, sh_flags := aw,
                sh_addralign := 8 } },
      { ptr := P.plt, kind := .plt,
        sh := { sh_name := u32 ePlt.offset, sh_type := SHT_PROGBITS,
                sh_flags := SHF_ALLOC ||| SHF_EXECINSTR, sh_addralign := 8 } },
      { ptr := P.sym, kind := .symtab, link := some P.symstr,
        sh := { sh_name := u32 eSymtab.offset, sh_type := SHT_SYMTAB, sh_entsize := sizeofSym,
                sh_flags := 0, sh_addralign := 8 } },
      { ptr := P.dynsym, kind := .dynsym, link := some P.dynstr,
        sh := { sh_name := u32 eDynsym.offset, sh_type := SHT_DYNSYM, sh_entsize := sizeofSym,
                sh_flags := SHF_ALLOC, sh_addralign := 8 } },
      { ptr := P.dynamic, link := some P.dynstr,
        sh := { sh_name := u32 eDynamic.offset, sh_type := SHT_DYNAMIC, sh_entsize := 16,
                sh_flags := aw, sh_addralign := 8 } },
      { ptr := P.relaDyn, link := some P.dynsym,
        sh := { sh_name := u32 eRelaDyn.offset, sh_type := SHT_RELA, sh_entsize := sizeofRela,
                sh_flags := SHF_ALLOC, sh_addralign := 8 } },
      { ptr := P.relaPlt, link := some P.dynsym,
        sh := { sh_name := u32 eRelaPlt.offset, sh_type := SHT_RELA, sh_entsize := sizeofRela,
                sh_flags := SHF_ALLOC, sh_addralign := 8 } },
      { ptr := P.copyRel, kind := .copyRel,
        sh := { sh_name := u32 eCopyRel.offset, sh_type := SHT_NOBITS, sh_flags := aw,
                sh_addralign := 64 } } ]
    ++ (if wantsHash opts.hashStyle then [hashSection] else [])
    ++ (if wantsGnuHash opts.hashStyle then [gnuHashSection] else [])
  .ok
    { eh := initHeader, dynRels := [], pltRels := [], sections, gotLen := 1, gotPlt := []
      dynEntries := [(.needed, eInterpFile.offset)], programHeaders := [], pVaddr := 0x200000
      startPVaddr := 0x200000, fileOffset := 0, shstr := names, symstr := StringTable.default
      dynstr := dynNames, symtab := SymbolTable.new false, dynsym := SymbolTable.new true, plt := []
      copyRel := {}, hashTab := {}, gnuTab := {}, nextPtr := P.first }

/-! ## Access through section pointers -/

/-- The section behind a pointer. The sections the writer keeps pointers to are always in the
list, so the panic of the model stands for nothing in the code. -/
def sec (w : Writer) (ptr : Nat) : M Section := unwrap (w.sections.find? fun s => s.ptr == ptr)

/-- Write through a pointer. -/
def modSec (w : Writer) (ptr : Nat) (f : Section → Section) : Writer :=
  { w with sections := w.sections.map fun s => if s.ptr = ptr then f s else s }

/-- Write through a pointer to one chunk; panics when the section has no such chunk. -/
def modChunk (w : Writer) (r : SectionRef) (f : Chunk → Chunk) : M Writer := do
  let s ← w.sec r.ptr
  if r.chunk < s.chunks.length then
    .ok (w.modSec r.ptr fun s => { s with chunks := s.chunks.modify r.chunk f })
  else .error .panic

/-! ## Adding sections, symbols and relocations -/

/-- `Writer::add_section` / `push_section` (`src/elf.rs` 381-429). -/
def pushSection (w : Writer) (name : Name) (sh : SectionHeader) (data : Option Bytes) :
    M (Writer × SectionRef) :=
  let (e, shstr) := w.shstr.getOrCreate name
  if e.new then
    let s : Section :=
      { ptr := w.nextPtr
        sh := { sh with sh_name := u32 e.offset, sh_addr := 0, sh_offset := 0 }
        chunks := [{ data := data.getD [] }] }
    .ok ({ w with shstr, sections := w.sections ++ [s], nextPtr := w.nextPtr + 1 },
      ⟨w.nextPtr, 0⟩)
  else
    match w.sections[e.index]? with
    | none => .error .panic
    | some s =>
      let s : Section := { s with sh := { s.sh with
        sh_size := s.sh.sh_size + sh.sh_size
        sh_addralign := max s.sh.sh_addralign sh.sh_addralign } }
      match data with
      | some d =>
        .ok ({ w with shstr, sections := w.sections.set e.index (s.addChunk d) },
          ⟨s.ptr, s.chunks.length⟩)
      | none =>
        if s.chunks.length = 0 then .error .panic
        else .ok ({ w with shstr, sections := w.sections.set e.index s }, ⟨s.ptr, s.chunks.length - 1⟩)

/-- Recording the symbol in the chunk of its section (`src/elf.rs` 448-452). -/
def noteSymbol (w : Writer) (elfSym : Sym) (sec : Option SectionRef) (r : SymbolRef) : M Writer :=
  match sec with
  | none => .ok w
  | some sr => if elfSym.st_shndx ≠ SHN_ABS then w.modChunk sr (·.addSymbol r) else .ok w

/-- `Writer::add_symbol` (`src/elf.rs` 456-472 with `add_symbol_inner` 431-454). The error carries
`reference`, the path every caller adds with `map_path_err` (`src/lib.rs` 110-112). -/
def addSymbol (w : Writer) (elfSym : Sym) (sec : Option SectionRef) (name : Name)
    (reference : Path) : M (Writer × SymbolRef) :=
  let (e, symstr) := w.symstr.getOrCreate name
  let elfSym := { elfSym with st_name := u32 e.offset }
  match w.symtab.addSymbol elfSym (elfHash name) (elfGnuHash name) reference with
  | .error old => .error (.err reference (.alreadyDefined name old))
  | .ok (symtab, r) => do
    let w ← noteSymbol { w with symstr, symtab } elfSym sec r
    .ok (w, r)

/-- `Writer::add_dyn_symbol` (`src/elf.rs` 474-505); all callers pass no section. -/
def addDynSymbol (w : Writer) (elfSym : Sym) (name : Name) (reference : Path) :
    M (Writer × SymbolRef) :=
  let (e, dynstr) := w.dynstr.getOrCreate name
  let elfSym := { elfSym with st_shndx := SHN_UNDEF, st_value := 0, st_name := u32 e.offset }
  match w.dynsym.addSymbol elfSym (elfHash name) (elfGnuHash name) reference with
  | .error old => .error (.err reference (.alreadyDefined name old))
  | .ok (dynsym, r) =>
    let w := { w with dynstr, dynsym }
    match w.symstr.get name with
    | none => .ok (w, r)
    | some e =>
      let sref := SymbolRef.named (u32 e.offset)
      match w.symtab.get sref with
      | none => .error .panic
      | some _ =>
        .ok ({ w with symtab := w.symtab.modify sref fun s => { s with dynamic := some r } }, r)

/-- `Writer::symbol_name` (`src/elf.rs` 507-515): `none` for section symbols, a panic for an offset
that is no name. -/
def symbolName (w : Writer) : SymbolRef → M (Option Name)
  | .named n => do
    let name ← unwrap (w.symstr.name n)
    .ok (some name)
  | .section _ _ => .ok none

/-- the test of `undefined_symbols` (`src/elf.rs` 521-523) -/
def isUnresolved (s : Symbol) : Bool :=
  s.sym.st_shndx == SHN_UNDEF && (s.isGlobal || s.isWeak) && s.dynamic.isNone

/-- `Writer::undefined_symbols` (`src/elf.rs` 517-529), in the iteration order of the map. -/
def undefinedSymbols (order : List Nat → List Nat) (w : Writer) : List SymbolRef :=
  ((order (AMap.keys w.symtab.symbols)).filter fun k =>
    (AMap.get? w.symtab.symbols k).any isUnresolved).map .named

/-- `Writer::add_relocation` (`src/elf.rs` 531-549). `path` is the path the caller adds to the
error (`src/lib.rs` 140). -/
def addRelocation (w : Writer) (reloc : Rela) (r : SymbolRef) (sr : SectionRef) (path : Path) :
    M Writer :=
  let ty := r_type reloc.r_info
  if ty = R_X86_64_8 ∨ ty = R_X86_64_16 ∨ ty = R_X86_64_PC16 ∨ ty = R_X86_64_PC8 then
    .error (.err path (.nonAbiReloc ty))
  else w.modChunk sr (·.addRelocation reloc r)

/-- `Writer::add_needed` (`src/elf.rs` 563-573) -/
def addNeeded (w : Writer) (soName : Name) : Writer :=
  let (e, dynstr) := w.dynstr.getOrCreate soName
  { w with
    dynstr
    dynEntries := if e.new then w.dynEntries ++ [(.needed, e.offset)] else w.dynEntries }

/-! ## `assign_section_addresses` -/

/-- What `scan_relocations` updates besides the relocations themselves. -/
structure ScanState where
  symtab : SymbolTable
  plt : Plt
  gotPlt : List (SymbolRef × Nat)
  gotLen : Nat
  deriving DecidableEq, Repr

/-- the relocation types that ask for a GOT slot (`src/elf.rs` 766-773) -/
def needsGot (ty : Nat) : Bool :=
  ty == R_X86_64_GOT32 || ty == R_X86_64_GOTPCREL || ty == R_X86_64_GOTOFF64
    || ty == R_X86_64_GOTPC32 || ty == R_X86_64_GOTPCRELX || ty == R_X86_64_REX_GOTPCRELX
    || ty == R_X86_64_TLSGD || ty == R_X86_64_GOTTPOFF

/-- The loop body of `scan_relocations` (`src/elf.rs` 763-804). -/
def scanOne (st : ScanState) (e : Rela × SymbolRef) : M (ScanState × (Rela × SymbolRef)) :=
  let (reloc, r) := e
  let ty := u32 reloc.r_info
  if needsGot ty then do
    let sym ← unwrap (st.symtab.get r)
    if sym.inGot.isNone then
      .ok ({ st with
        symtab := st.symtab.modify r fun s => { s with inGot := some (st.gotLen * 8) }
        gotLen := st.gotLen + (if sym.isTls && ty == R_X86_64_TLSGD then 2 else 1) }, e)
    else .ok (st, e)
  else if ty = R_X86_64_PLT32 then do
    let sym ← unwrap (st.symtab.get r)
    if sym.dynamic.isSome then
      let (offset, gotPlt) :=
        match AMap.get? st.gotPlt r with
        | some o => (o, st.gotPlt)
        | none =>
          ((st.gotPlt.length + 3) * 8, st.gotPlt ++ [(r, (st.gotPlt.length + 3) * 8)])
      let (index, plt) := st.plt.insert r
      .ok ({ st with
        symtab := st.symtab.modify r fun s => { s with inGotPlt := some offset, inPlt := some index }
        gotPlt, plt }, e)
    else
      .ok (st, ({ reloc with r_info := reloc.r_info - ty + R_X86_64_PC32 }, r))
  else .ok (st, e)

/-- `scan_relocations` on one chunk (`src/elf.rs` 761-805) -/
def scanChunk (st : ScanState) (c : Chunk) : M (ScanState × Chunk) := do
  let (st, rels) ← mapAccumM scanOne st c.relocations
  .ok (st, { c with relocations := rels })

/-- `scan_relocations` on one section (`src/elf.rs` 760-806) -/
def scanSection (st : ScanState) (s : Section) : M (ScanState × Section) := do
  let (st, chunks) ← mapAccumM scanChunk st s.chunks
  .ok (st, { s with chunks })

/-- `Writer::scan_relocations` (`src/elf.rs` 759-807) -/
def scanRelocations (w : Writer) : M Writer := do
  let (st, sections) ← mapAccumM scanSection
    { symtab := w.symtab, plt := w.plt, gotPlt := w.gotPlt, gotLen := w.gotLen } w.sections
  .ok { w with symtab := st.symtab, plt := st.plt, gotPlt := st.gotPlt, gotLen := st.gotLen, sections }

/-- set `sh_size` and append a chunk of that many zero bytes -/
def growZero (n : Nat) (s : Section) : Section :=
  { s with sh := { s.sh with sh_size := n }, chunks := s.chunks ++ [{ data := List.replicate n 0 }] }

/-- `resize_got_section` (`src/elf.rs` 575-580) -/
def resizeGot (w : Writer) : Writer := w.modSec P.got (growZero (8 * w.gotLen))

/-- `resize_got_plt_section` (`src/elf.rs` 582-589) -/
def resizeGotPlt (w : Writer) : Writer := w.modSec P.gotPlt (growZero (8 * (w.gotPlt.length + 3)))

/-- `Section::expand` (`src/elf/section.rs` 245-250) with the `expand` of each payload:
`src/elf/plt.rs` 30-54, `src/elf/string_table.rs` 103-105, `src/elf/symbol_table.rs` 219-223,
326-331, 440-445, `src/elf/copy_rel.rs` 37-39. -/
def expand (sched : Sched) (w : Writer) (s : Section) : Section :=
  let sized (n : Nat) (s : Section) : Section := { s with sh := { s.sh with sh_size := n } }
  match s.kind with
  | .plain => s
  | .plt => sized w.plt.size (s.addChunk w.plt.chunk)
  | .shstr => sized w.shstr.totalLen s
  | .symstr => sized w.symstr.totalLen s
  | .dynstr => sized w.dynstr.totalLen s
  | .hash => sized (serHashTable w.hashTab).length (s.addChunk (serHashTable w.hashTab))
  | .gnuHash => sized (serGnuHashTable w.gnuTab).length (s.addChunk (serGnuHashTable w.gnuTab))
  | .symtab =>
    let s := sized w.symtab.totalLen (s.addChunk (w.symtab.chunk sched.symIter))
    { s with sh := { s.sh with sh_info := u32 w.symtab.numLocals } }
  | .dynsym =>
    let s := sized w.dynsym.totalLen (s.addChunk (w.dynsym.chunk sched.dynIter))
    { s with sh := { s.sh with sh_info := u32 w.dynsym.numLocals } }
  | .copyRel => sized w.copyRel.size s

/-- Filling the hash tables (`src/elf.rs` 817-824). Tables without a section are not reachable, so
filling both is harmless; the panic of the model (chains longer than the table, no null symbol)
is excluded by `C16`. -/
def fillHashes (sched : Sched) (w : Writer) : M Writer := do
  let sorted := w.dynsym.sorted sched.dynIter
  let hashTab ← unwrap (HashTable.addSymbols (sorted.map (·.hash)))
  let gnuTab ← unwrap (GnuHashTable.addSymbols (sorted.map (·.gnuHash)))
  .ok { w with hashTab, gnuTab }

/-- Expanding the dynamic symbol table first (`src/elf.rs` 816) -/
def expandDynsym (sched : Sched) (w : Writer) : Writer := w.modSec P.dynsym (expand sched w)

/-- Expanding every section that is not of type `SHT_DYNSYM` (`src/elf.rs` 827-829) -/
def expandRest (sched : Sched) (w : Writer) : Writer :=
  { w with sections := w.sections.map fun s =>
      if s.sh.sh_type ≠ SHT_DYNSYM then expand sched w s else s }

/-- `dyn_sym_indices` (`src/elf.rs` 833-837) -/
def dynSymIndices (sorted : List Symbol) : List (Nat × Nat) :=
  sorted.zipIdx.foldl (fun m e => AMap.insert m e.1.sym.st_name e.2) []

/-- `rela` (`src/elf.rs` 1102-1104) -/
def rela (offset index ty : Nat) : Rela :=
  { r_offset := offset, r_info := index * 2 ^ 32 + ty, r_addend := 0 }

/-- The variables updated by the loop over the dynamically resolved symbols. -/
structure DynState where
  symtab : SymbolTable
  dynsym : SymbolTable
  copyRel : CopyRel
  dynRels : List Rela
  pltRels : List Rela
  deriving DecidableEq, Repr

/-- The loop body (`src/elf.rs` 844-867) for the symbol with key `k`. -/
def dynRelStep (indices : List (Nat × Nat)) (st : DynState) (k : Nat) : M DynState := do
  let sym ← unwrap (AMap.get? st.symtab.symbols k)
  match sym.dynamic with
  | none => .ok st
  | some d =>
    let index ← unwrap (AMap.get? indices d.st_name)
    let st : DynState :=
      match sym.inGot with
      | some off => { st with dynRels := st.dynRels ++ [rela off index R_X86_64_GLOB_DAT] }
      | none => st
    let ds ← unwrap (st.dynsym.get d)
    let st : DynState :=
      if ds.isObject then
        let (off, copyRel) := st.copyRel.insert d ds.sym.st_size
        { st with
          copyRel
          dynRels := st.dynRels ++ [rela off index R_X86_64_COPY]
          dynsym := st.dynsym.modify d fun s => { s with sym := { s.sym with st_value := off } } }
      else st
    match sym.inGotPlt with
    | some off =>
      .ok { st with
        symtab := st.symtab.modify (.named k) fun s =>
          { s with relocationOffset := some st.pltRels.length }
        pltRels := st.pltRels ++ [rela off index R_X86_64_JUMP_SLOT] }
    | none => .ok st

/-- Setting `sh_size` -/
def setSize (n : Nat) (s : Section) : Section := { s with sh := { s.sh with sh_size := n } }

/-- The dynamic relocations and the sizes of their sections (`src/elf.rs` 831-870). -/
def genDynRels (sched : Sched) (w : Writer) : M Writer := do
  let indices := dynSymIndices (w.dynsym.sorted sched.dynIter)
  let st ← foldM' (dynRelStep indices)
    { symtab := w.symtab, dynsym := w.dynsym, copyRel := w.copyRel, dynRels := w.dynRels,
      pltRels := w.pltRels }
    (sched.symIter (AMap.keys w.symtab.symbols))
  let w := { w with symtab := st.symtab, dynsym := st.dynsym, copyRel := st.copyRel,
                    dynRels := st.dynRels, pltRels := st.pltRels }
  let w := w.modSec P.relaDyn (setSize (w.dynRels.length * sizeofRela))
  .ok (w.modSec P.relaPlt (setSize (w.pltRels.length * sizeofRela)))

/-- the name of a section (`names.name(sh.sh_name as usize).unwrap()`) -/
def secName (w : Writer) (s : Section) : M Name := unwrap (w.shstr.name s.sh.sh_name)

/-- The size of `.dynamic` (`src/elf.rs` 873-878). -/
def sizeDynamic (w : Writer) : M Writer := do
  let n ← foldM' (fun n s => do
    let name ← w.secName s
    .ok (n + Dld.dynEntries name s.sh)) 0 w.sections
  .ok (w.modSec P.dynamic (setSize ((w.dynEntries.length + (n + 1)) * 2 * 8)))

/-- `sort_sections` (`src/elf.rs` 750-757) -/
def sortSecs (sched : Sched) (w : Writer) : M Writer := do
  let sections ← sortSections sched.secOrder w.sections
  .ok { w with sections }

/-- `generate_program_headers` (`src/elf.rs` 1018-1088) on the writer. `p_type` unwraps the name of
every section that is not `SHT_DYNAMIC`; every section's name is in the table. -/
def genProgramHeaders (w : Writer) : Writer :=
  let (sections, phs, fileOffset, pVaddr) :=
    generateProgramHeaders (fun sh => w.shstr.name sh.sh_name == some b!".interp")
      w.eh.e_phentsize w.fileOffset w.pVaddr w.sections
  { w with sections, programHeaders := phs ++ w.programHeaders, fileOffset, pVaddr }

/-- `add_dyn_entries` (`src/elf.rs` 1090-1099) -/
def addDynEntries (w : Writer) : M Writer := do
  let entries ← foldM' (fun es s => do
    let name ← w.secName s
    .ok (es ++ dynEntriesOf name s.sh)) w.dynEntries w.sections
  .ok { w with dynEntries := entries ++ [(.null, 0)] }

/-- The loop body of `patch_plt_and_got_plt` (`src/elf.rs` 623-663) on the contents of `.plt` and
`.got.plt`. -/
def patchPltEntry (symtab : SymbolTable) (pltAddress gotPltAddress : Nat)
    (bufs : Bytes × Bytes) (e : SymbolRef × Nat) : M (Bytes × Bytes) := do
  let (pltData, gotPltData) := bufs
  let (r, offset) := e
  let sym ← unwrap (symtab.get r)
  let index ← unwrap sym.inPlt
  let entryAddr ← pltEntryAddr pltAddress index
  let gotPltData ← writeAt gotPltData offset (leInt 8 (entryAddr + PLT_ENTRY_JMP_INSTR_SIZE))
  let entryOffset := (entryAddr - pltAddress).toNat
  let rel ← i32 (((offset + gotPltAddress : Nat) : Int) - entryAddr - PLT_ENTRY_JMP_INSTR_SIZE)
  let pltData ← writeAt pltData (entryOffset + 2) (leInt 4 rel)
  let relocationOffset ← unwrap sym.relocationOffset
  let pltData ← writeAt pltData (entryOffset + PLT_ENTRY_JMP_INSTR_SIZE + 1)
    (le 4 (u32 relocationOffset))
  let plt0 ← i32 ((pltAddress : Int) - (entryAddr + PLT_ENTRY_SIZE))
  let pltData ← writeAt pltData
    (entryOffset + PLT_ENTRY_JMP_INSTR_SIZE + PLT_ENTRY_PUSH_INSTR_SIZE + 1) (leInt 4 plt0)
  .ok (pltData, gotPltData)

/-- The header patches of `patch_plt_and_got_plt` (`src/elf.rs` 594-619) -/
def patchPltHeader (pltAddress gotPltAddress : Nat) (pltData : Bytes) : M Bytes := do
  let relative : Int := (gotPltAddress : Int) - pltAddress
  let v1 ← i32 (relative + 8 - PLT_ENTRY_JMP_INSTR_SIZE)
  let pltData ← writeAt pltData 2 (leInt 4 v1)
  let v2 ← i32 (relative + 2 * 8 - 2 * PLT_ENTRY_JMP_INSTR_SIZE)
  writeAt pltData (PLT_ENTRY_JMP_INSTR_SIZE + 2) (leInt 4 v2)

/-- replace the data of chunk 0 -/
def setChunk0 (data : Bytes) (s : Section) : Section :=
  { s with chunks := s.chunks.modify 0 fun c => { c with data := data } }

/-- `patch_plt_and_got_plt` (`src/elf.rs` 591-664) -/
def patchPlt (sched : Sched) (w : Writer) : M Writer := do
  let pltSec ← w.sec P.plt
  let gotPltSec ← w.sec P.gotPlt
  let pltChunk ← unwrap pltSec.chunks[0]?
  let gotPltChunk ← unwrap gotPltSec.chunks[0]?
  let pltData ← patchPltHeader pltSec.sh.sh_addr gotPltSec.sh.sh_addr pltChunk.data
  let entries := (sched.gotPltIter (AMap.keys w.gotPlt)).filterMap fun r =>
    (AMap.get? w.gotPlt r).map fun o => (r, o)
  let (pltData, gotPltData) ←
    foldM' (patchPltEntry w.symtab pltSec.sh.sh_addr gotPltSec.sh.sh_addr)
      (pltData, gotPltChunk.data) entries
  .ok ((w.modSec P.plt (setChunk0 pltData)).modSec P.gotPlt (setChunk0 gotPltData))

/-- `assign_section_addresses` (`src/elf.rs` 809-888) -/
def assignSectionAddresses (sched : Sched) (w : Writer) : M Writer := do
  let w ← w.scanRelocations
  let w := w.resizeGot
  let w := w.resizeGotPlt
  let w := w.expandDynsym sched
  let w ← w.fillHashes sched
  let w := w.expandRest sched
  let w ← w.genDynRels sched
  let w ← w.sizeDynamic
  let w ← w.sortSecs sched
  let w := w.genProgramHeaders
  let w ← w.addDynEntries
  w.patchPlt sched

/-! ## `handle_special_symbols` -/

/-- The `.init_array` / `.fini_array` branches (`src/elf.rs` 683-705) for one section. -/
def boundSymbols (symstr : StringTable) (start stop : Name) (t : SymbolTable) (s : Section) :
    M (SymbolTable × Section) := do
  let s ←
    match symstr.get start with
    | some e => s.modifyChunk 0 (·.addSymbol (.named (u32 e.offset)))
    | none => .ok s
  match symstr.get stop with
  | some e =>
    let r := SymbolRef.named (u32 e.offset)
    let _ ← unwrap (t.get r)
    let t := t.modify r fun x => { x with sym := { x.sym with st_value := s.sizeOnDisk } }
    let s ← if s.chunks.length = 0 then .error .panic
      else s.modifyChunk (s.chunks.length - 1) (·.addSymbol r)
    .ok (t, s)
  | none => .ok (t, s)

/-- The loop body of `handle_special_symbols` (`src/elf.rs` 681-706) -/
def specialStep (shstr symstr : StringTable) (skip : List Nat) (t : SymbolTable) (s : Section) :
    M (SymbolTable × Section) :=
  if s.sh.sh_name ∈ skip then .ok (t, s)
  else if shstr.shName b!".init_array" = some s.sh.sh_name then
    boundSymbols symstr b!"__init_array_start" b!"__init_array_end" t s
  else if shstr.shName b!".fini_array" = some s.sh.sh_name then
    boundSymbols symstr b!"__fini_array_start" b!"__fini_array_end" t s
  else .ok (t, s)

/-- `handle_special_symbols` (`src/elf.rs` 666-712) -/
def handleSpecialSymbols (w : Writer) : M Writer := do
  let gotPltSec ← w.sec P.gotPlt
  let symtab :=
    match w.symstr.get b!"_GLOBAL_OFFSET_TABLE_" with
    | some e => w.symtab.modify (.named (u32 e.offset)) fun s =>
        { s with sym := { s.sym with st_shndx := u16 gotPltSec.index,
                                     st_value := gotPltSec.sh.sh_addr } }
    | none => w.symtab
  let symstrSec ← w.sec P.symstr
  let shstrSec ← w.sec P.shstr
  let (symtab, sections) ←
    mapAccumM (specialStep w.shstr w.symstr [symstrSec.sh.sh_name, shstrSec.sh.sh_name])
      symtab w.sections
  let w := { w with symtab, sections }
  let copyRelSec ← w.sec P.copyRel
  .ok { w with dynsym := w.dynsym.updateObjectSymbols copyRelSec.sh.sh_addr copyRelSec.index }

/-! ## `handle_relocations` -/

/-- the sections visited by `handle_relocations` (`src/elf.rs` 896-897, 904-905) -/
def relocatable (names : List Nat) (s : Section) : Bool := !(names.contains s.sh.sh_name)

/-- `handle_relocations` (`src/elf.rs` 890-911) -/
def handleRelocations (w : Writer) : M Writer := do
  let gotSec ← w.sec P.got
  let pltSec ← w.sec P.plt
  let symSec ← w.sec P.sym
  let dynsymSec ← w.sec P.dynsym
  let names := [symSec.sh.sh_name, dynsymSec.sh.sh_name]
  let symtab := ((w.sections.drop 1).filter (relocatable names)).foldl
    (fun t s => s.patchSymbolValues t) w.symtab
  let (_, rest) ← mapAccumM (fun (_ : Unit) s =>
    if relocatable names s then do
      let (_, chunks) ← mapAccumM (fun (_ : Unit) c => do
        let c ← Chunk.applyRelocations c gotSec.sh.sh_addr pltSec.sh.sh_addr symtab w.dynsym
        .ok ((), c)) () s.chunks
      .ok ((), { s with chunks })
    else .ok ((), s)) () (w.sections.drop 1)
  .ok { w with symtab, sections := w.sections.take 1 ++ rest }

/-! ## `compute_tables`, `compute_sections` -/

/-- the rebasing of one dynamic relocation (`src/elf.rs` 738-743) -/
def rebaseRela (gotAddr gotPltAddr copyRelAddr : Nat) (r : Rela) : Rela :=
  let ty := r_type r.r_info
  if ty = R_X86_64_GLOB_DAT then { r with r_offset := r.r_offset + gotAddr }
  else if ty = R_X86_64_JUMP_SLOT then { r with r_offset := r.r_offset + gotPltAddr }
  else if ty = R_X86_64_COPY then { r with r_offset := r.r_offset + copyRelAddr }
  else r

/-- `compute_tables` (`src/elf.rs` 714-748) -/
def computeTables (w : Writer) : M Writer := do
  let w := w.modSec P.shstr (·.addChunk w.shstr.chunk)
  let w := w.modSec P.symstr (·.addChunk w.symstr.chunk)
  let w := w.modSec P.dynstr (·.addChunk w.dynstr.chunk)
  let w := w.modSec P.dynamic (·.addChunk (serVec serDyn w.dynEntries))
  let gotSec ← w.sec P.got
  let gotPltSec ← w.sec P.gotPlt
  let copyRelSec ← w.sec P.copyRel
  let rebase := rebaseRela gotSec.sh.sh_addr gotPltSec.sh.sh_addr copyRelSec.sh.sh_addr
  let w := { w with dynRels := w.dynRels.map rebase, pltRels := w.pltRels.map rebase }
  let w := w.modSec P.relaDyn (·.addChunk (serVec serRela w.dynRels))
  .ok (w.modSec P.relaPlt (·.addChunk (serVec serRela w.pltRels)))

/-- The header fields set at the end of `compute_sections` (`src/elf.rs` 930-947). The
multiplication in line 944 is a `u16` multiplication. -/
def finishHeader (w : Writer) : M Writer := do
  let entry ←
    match w.symstr.get b!"_start" with
    | some e => do
      let s ← unwrap (w.symtab.get (.named (u32 e.offset)))
      .ok s.sym.st_value
    | none => .ok w.eh.e_entry
  let shstrSec ← w.sec P.shstr
  let eh := { w.eh with
    e_entry := entry
    e_shnum := u16 w.sections.length
    e_phnum := u16 w.programHeaders.length
    e_shstrndx := u16 shstrSec.index
    e_shoff := w.fileOffset }
  match w.programHeaders with
  | [] => .error .panic
  | ph :: phs =>
    if eh.e_phnum * eh.e_phentsize ≥ 65536 then .error .panic
    else
      let size := eh.e_phnum * eh.e_phentsize
      let ph := { ph with
        p_offset := eh.e_phoff, p_memsz := size, p_filesz := size
        p_vaddr := eh.e_phoff + w.startPVaddr, p_paddr := eh.e_phoff + w.startPVaddr }
      .ok { w with eh, programHeaders := ph :: phs }

/-- `compute_sections` (`src/elf.rs` 921-948) -/
def computeSections (sched : Sched) (w : Writer) : M Writer := do
  let w ← w.assignSectionAddresses sched
  let w ← w.handleSpecialSymbols
  let w ← w.handleRelocations
  let w ← w.computeTables
  w.finishHeader

/-! ## `write_to_disk` -/

/-- `Section::finalize` (`src/elf/section.rs` 252-263) with the `finalize` of each payload
(`src/elf/section.rs` 123-134, `src/elf/symbol_table.rs` 225-229). -/
def finalizeSec (sched : Sched) (w : Writer) (s : Section) : M Section := do
  let s ←
    match s.kind with
    | .symtab => s.modifyChunk 0 fun _ => { data := w.symtab.chunk sched.symIter }
    | .dynsym => s.modifyChunk 0 fun _ => { data := w.dynsym.chunk sched.dynIter }
    | .copyRel => .ok (setSize w.copyRel.size s)
    | _ => .ok s
  match s.link with
  | none => .ok s
  | some p => do
    let l ← w.sec p
    .ok { s with sh := { s.sh with sh_link := u32 l.index } }

/-- The section loop of `write_to_disk` (`src/elf.rs` 958-986): `offset` is the nominal position;
the result is the bytes written and the finalized sections. -/
def writeSections (sched : Sched) (w : Writer) : Nat → List Section → M (Bytes × List Section)
  | _, [] => .ok ([], [])
  | offset, s :: ss => do
    let pad := List.replicate (s.sh.sh_offset - offset) (0 : UInt8)
    let offset := max offset s.sh.sh_offset
    let s ← finalizeSec sched w s
    let (bytes, ss) ← writeSections sched w (offset + s.sizeOnDisk) ss
    .ok (pad ++ s.chunks.flatMap (·.data) ++ bytes, s :: ss)

/-- `write_to_disk` (`src/elf.rs` 950-1000): the contents of the output file, and the sections as
their headers are written. -/
def writeToDisk (sched : Sched) (w : Writer) : M (Bytes × List Section) := do
  let head := serHeader w.eh ++ serVec serProgramHeader w.programHeaders
  let offset := sizeofHeader + w.programHeaders.length * sizeofProgramHeader
  let (body, secs) ← writeSections sched w offset w.sections
  .ok (head ++ body ++ serVec (fun s => serSectionHeader s.sh) secs, secs)

end Writer
end Dld
