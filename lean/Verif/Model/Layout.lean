import Verif.Model.Section
import Verif.Model.StringTable
/-! # Section order, program headers and dynamic entries (`src/elf.rs`) -/
namespace Dld

/-- `round_to` (`src/elf.rs` 1106-1112) -/
def roundTo (val multiple : Nat) : Nat :=
  if multiple = 0 then val
  else
    let rem := val % multiple
    val + (if rem ≠ 0 then multiple - rem else 0)

/-- `PAGE_ALIGNMENT` (`src/elf.rs` 1114) -/
def PAGE_ALIGNMENT : Nat := 0x1000

/-- `sh_flags as u32 & flag == flag` -/
def hasFlag (flags flag : Nat) : Bool := (u32 flags &&& flag) == flag

/-- `section_cmp` (`src/elf.rs` 1220-1236) on the two fields it reads. -/
def sectionCmp (s1 s2 : SectionHeader) : Ordering :=
  match compare s1.sh_flags s2.sh_flags with
  | .eq => (compare s1.sh_addralign s2.sh_addralign).swap
  | o =>
    if s1.sh_flags = 0 then .gt
    else if s2.sh_flags = 0 then .lt
    else o

/-- "not greater" for the sort -/
def sectionLe (s1 s2 : Section) : Bool := sectionCmp s1.sh s2.sh != .gt

/-- `Writer::sort_sections` (`src/elf.rs` 750-757): the null section stays first, the rest is sorted
with `sort_unstable_by`; `order` is the arbitrary permutation an unstable sort may apply to equal
elements. Then indices are assigned. An empty list panics (`remove(0)`). -/
def sortSections (order : List Section → List Section) : List Section → M (List Section)
  | [] => .error .panic
  | null :: rest =>
    .ok ((null :: stableSort sectionLe (order rest)).mapIdx fun i s => { s with index := i })

/-- `Writer::count_program_headers` (`src/elf.rs` 1002-1016), the loop, over all sections but the
first. -/
def countLoads : (flags : Nat) → List Section → Nat
  | _, [] => 0
  | flags, s :: ss =>
    if s.sh.sh_flags ≠ flags then
      (if hasFlag s.sh.sh_flags SHF_ALLOC then 1 else 0) + countLoads s.sh.sh_flags ss
    else countLoads flags ss

/-- `Writer::count_program_headers` (`src/elf.rs` 1002-1016) -/
def countProgramHeaders (sections : List Section) : Nat := countLoads 0 (sections.drop 1) + 3

/-- The variables of `generate_program_headers` (`src/elf.rs` 1018-1074): the writer's
`file_offset`, `p_vaddr` and `program_headers`, and the locals `first_load_data`, `flags`,
`program_header`. -/
structure LayoutState where
  fileOffset : Nat
  pVaddr : Nat
  extra : Option Nat
  flags : Nat
  cur : Option ProgramHeader
  phs : List ProgramHeader
  deriving DecidableEq, Repr

/-- `get_load_program_header` (`src/elf.rs` 1116-1152) for a section with `SHF_ALLOC`. -/
def loadHeader (st : LayoutState) (s : Section) : LayoutState × Section × ProgramHeader :=
  let firstLoad := st.extra.isSome
  let extraData := st.extra.getD 0
  let write := if hasFlag s.sh.sh_flags SHF_WRITE then PF_W else 0
  let exec := if hasFlag s.sh.sh_flags SHF_EXECINSTR then PF_X else 0
  let pVaddr := roundTo st.pVaddr PAGE_ALIGNMENT
  let s := s.setAddress (pVaddr + extraData)
  let fileOffset := roundTo st.fileOffset PAGE_ALIGNMENT
  let sizeOnDisk := s.sizeOnDisk + extraData
  let shOffset := if firstLoad then fileOffset + extraData else fileOffset
  let pOffset := if firstLoad then 0 else fileOffset
  let shSize := s.sh.sh_size + extraData
  ({ st with fileOffset := fileOffset + sizeOnDisk, pVaddr := pVaddr + shSize, extra := none },
   { s with sh := { s.sh with sh_offset := shOffset } },
   { p_type := PT_LOAD, p_flags := PF_R ||| write ||| exec, p_align := PAGE_ALIGNMENT,
     p_offset := pOffset, p_vaddr := pVaddr, p_paddr := pVaddr, p_filesz := sizeOnDisk,
     p_memsz := shSize })

/-- `sh.sh_offset = post_inc(&mut file_offset, sh.size_on_disk())`
(`src/elf.rs` 1042, 1046, 1214-1218) -/
def placeInFile (st : LayoutState) (s : Section) : LayoutState × Section :=
  ({ st with fileOffset := st.fileOffset + s.sizeOnDisk },
   { s with sh := { s.sh with sh_offset := st.fileOffset } })

/-- The placement part of the loop body of `generate_program_headers` (`src/elf.rs` 1027-1053). -/
def placeSection (st : LayoutState) (s : Section) : LayoutState × Section :=
  if s.sh.sh_flags ≠ st.flags then
    let st := { st with phs := st.phs ++ st.cur.toList, cur := none }
    if hasFlag s.sh.sh_flags SHF_ALLOC then
      let (st, s, ph) := loadHeader st s
      ({ st with cur := some ph, flags := s.sh.sh_flags }, s)
    else
      let (st, s) := placeInFile st s
      ({ st with flags := s.sh.sh_flags }, s)
  else
    let (st, s) := placeInFile st s
    match st.cur with
    | none => (st, s)
    | some ph =>
      ({ st with cur := some { ph with p_filesz := ph.p_filesz + s.sizeOnDisk,
                                       p_memsz := ph.p_memsz + s.sh.sh_size },
                 pVaddr := st.pVaddr + s.sh.sh_size },
       s.setAddress st.pVaddr)

/-- `p_type` (`src/elf.rs` 1206-1212), `isInterp` telling whether the section's name is `.interp`. -/
def pType (isInterp : Bool) (sh : SectionHeader) : Option Nat :=
  if sh.sh_type = SHT_DYNAMIC then some PT_DYNAMIC
  else if isInterp then some PT_INTERP
  else none

/-- The loop body of `generate_program_headers` (`src/elf.rs` 1024-1074). -/
def layoutStep (isInterp : SectionHeader → Bool) (st : LayoutState) (s : Section) :
    LayoutState × Section :=
  let oldPVaddr := st.pVaddr
  let (st, s) := placeSection st s
  match pType (isInterp s.sh) s.sh with
  | none => (st, s)
  | some ty =>
    let write := if hasFlag s.sh.sh_flags SHF_WRITE then PF_W else 0
    ({ st with phs :=
        { p_type := ty, p_flags := PF_R ||| write, p_align := s.sh.sh_addralign,
          p_offset := s.sh.sh_offset, p_vaddr := oldPVaddr, p_paddr := oldPVaddr,
          p_filesz := s.sizeOnDisk, p_memsz := s.sh.sh_size } :: st.phs }, s)

/-- The loop of `generate_program_headers` over all sections but the null section. -/
def layoutLoop (isInterp : SectionHeader → Bool) : LayoutState → List Section →
    LayoutState × List Section
  | st, [] => (st, [])
  | st, s :: ss =>
    let (st, s) := layoutStep isInterp st s
    let (st, ss) := layoutLoop isInterp st ss
    (st, s :: ss)

/-- The `PT_PHDR` entry inserted at the front (`src/elf.rs` 1075-1087). -/
def phdrPlaceholder : ProgramHeader :=
  { p_type := PT_PHDR, p_flags := PF_R, p_offset := 0, p_vaddr := 0, p_paddr := 0, p_filesz := 0,
    p_memsz := 0, p_align := 8 }

/-- `generate_program_headers` (`src/elf.rs` 1018-1088): the sections with their addresses and
offsets, the program headers, and the final `file_offset` and `p_vaddr`. -/
def generateProgramHeaders (isInterp : SectionHeader → Bool) (phentsize : Nat)
    (fileOffset pVaddr : Nat) (sections : List Section) :
    List Section × List ProgramHeader × Nat × Nat :=
  let programHeadersSize := countProgramHeaders sections * phentsize
  let st : LayoutState :=
    { fileOffset, pVaddr, extra := some (programHeadersSize + sizeofHeader), flags := 0, cur := none,
      phs := [] }
  let (st, placed) := layoutLoop isInterp st (sections.drop 1)
  (sections.take 1 ++ placed, phdrPlaceholder :: st.phs, st.fileOffset, st.pVaddr)

/-- `dyn_entries` (`src/elf.rs` 1154-1168) on the name and header of a section. -/
def dynEntries (name : Name) (sh : SectionHeader) : Nat :=
  if name = b!".init" ∨ name = b!".fini" ∨ name = b!".got.plt" then 1
  else if name = b!".rela.dyn" then 4
  else if name = b!".rela.plt" then 3
  else if sh.sh_type = SHT_DYNSYM ∨ sh.sh_type = SHT_INIT_ARRAY ∨ sh.sh_type = SHT_FINI_ARRAY then 2
  else if sh.sh_type = SHT_STRTAB ∧ (sh.sh_flags &&& SHF_ALLOC) = SHF_ALLOC then 2
  else if sh.sh_type = SHT_HASH ∨ sh.sh_type = SHT_GNU_HASH then 1
  else 0

/-- `try_add_dyn_entries` (`src/elf.rs` 1170-1204): the entries appended for a section. -/
def dynEntriesOf (name : Name) (sh : SectionHeader) : List (DynTag × Nat) :=
  if name = b!".init" then [(.init, sh.sh_addr)]
  else if name = b!".fini" then [(.fini, sh.sh_addr)]
  else if name = b!".rela.dyn" then
    [(.rela, sh.sh_addr), (.relaEnt, sh.sh_entsize), (.relaSize, sh.sh_size), (.relaCount, 0)]
  else if name = b!".rela.plt" then
    [(.jmpRel, sh.sh_addr), (.pltRel, DynTag.rela.toNat), (.pltRelSz, sh.sh_size)]
  else if name = b!".got.plt" then [(.pltGot, sh.sh_addr)]
  else if sh.sh_type = SHT_DYNSYM then [(.symTab, sh.sh_addr), (.symEnt, sh.sh_entsize)]
  else if sh.sh_type = SHT_STRTAB ∧ (sh.sh_flags &&& SHF_ALLOC) = SHF_ALLOC then
    [(.strTab, sh.sh_addr), (.strSize, sh.sh_size)]
  else if sh.sh_type = SHT_INIT_ARRAY then [(.initArray, sh.sh_addr), (.initArraySize, sh.sh_size)]
  else if sh.sh_type = SHT_FINI_ARRAY then [(.finiArray, sh.sh_addr), (.finiArraySize, sh.sh_size)]
  else if sh.sh_type = SHT_HASH then [(.hash, sh.sh_addr)]
  else if sh.sh_type = SHT_GNU_HASH then [(.gnuHash, sh.sh_addr)]
  else []

end Dld
