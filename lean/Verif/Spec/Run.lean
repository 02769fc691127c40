import Verif.Spec.History
/-! # Complete links through the writer's interface -/
namespace Dld

/-- A complete use of the writer: made with `opts`, given the calls `ops` (giving `w`), then
`compute_sections` (giving `w'`) and `write_to_disk`, under the iteration orders `sched`. `file` is
the content of the output file; `secs` are the sections as their headers are written. -/
structure Run (opts : Options) (ops : List Op) (sched : Sched) (w w' : Writer) (file : Bytes) (secs : List Section) :
    Prop where
  hist : Hist opts ops w
  valid : sched.Valid
  compute : w.computeSections sched = .ok w'
  write : w'.writeToDisk sched = .ok (file, secs)

/-- No pushed section is writable without being allocated. (Such a section would be sorted before
all others and be placed at file offset 0, over the headers.) -/
def FlagsOk (ops : List Op) : Prop := ∀ n sh d r, Op.push n sh d r ∈ ops → sh.sh_flags ≠ SHF_WRITE

/-- No pushed section has type `SHT_DYNAMIC`; the driver skips them (`src/lib.rs` 26-27). -/
def NoDynamicPush (ops : List Op) : Prop := ∀ n sh d r, Op.push n sh d r ∈ ops → sh.sh_type ≠ SHT_DYNAMIC

/-- The section occupies memory at run time: `SHF_ALLOC`, bit 1 of the flags. -/
def Allocated (s : Section) : Prop := s.sh.sh_flags.testBit 1 = true

/-- The section is writable at run time: `SHF_WRITE`, bit 0 of the flags. -/
def Writable (s : Section) : Prop := s.sh.sh_flags.testBit 0 = true

/-- The section is executable at run time: `SHF_EXECINSTR`, bit 2 of the flags. -/
def Executable (s : Section) : Prop := s.sh.sh_flags.testBit 2 = true

instance (s : Section) : Decidable (Allocated s) := inferInstanceAs (Decidable (_ = _))
instance (s : Section) : Decidable (Writable s) := inferInstanceAs (Decidable (_ = _))
instance (s : Section) : Decidable (Executable s) := inferInstanceAs (Decidable (_ = _))

/-- the segments the loader maps -/
def loadsOf (w : Writer) : List ProgramHeader := w.programHeaders.filter fun ph => ph.p_type == 1

/-- the section name table is smaller than 4 GiB, so that 32-bit name offsets are exact -/
def NamesFit (w : Writer) : Prop := w.shstr.totalLen < 2 ^ 32

/-- The names of the sections the writer makes itself, other than the null section
(`src/elf.rs` 199-309). -/
def reservedNames : List Name :=
  [b!".shstrtab", b!".strtab", b!".dynstr", b!".interp", b!".got", b!".got.plt", b!".plt", b!".symtab", b!".dynsym",
   b!".dynamic", b!".rela.dyn", b!".rela.plt", b!".hash", b!".gnu.hash", b!".copyrel"]

/-- Pushes as well-formed object files lead to: no section has the name of one of the writer's own,
null sections are empty, a section has data exactly if it is not `SHT_NOBITS`, the data is as long as
the header says, and sections of one name agree on being `SHT_NOBITS`. -/
structure CleanInputs (ops : List Op) : Prop where
  names : ∀ n sh d r, Op.push n sh d r ∈ ops → n ∉ reservedNames
  null : ∀ sh d r, Op.push [] sh d r ∈ ops → sh.sh_size = 0 ∧ d.getD [] = []
  nobits : ∀ n sh d r, n ≠ [] → Op.push n sh d r ∈ ops → (sh.sh_type = SHT_NOBITS ↔ d = none)
  size : ∀ n sh b r, Op.push n sh (some b) r ∈ ops → b.length = sh.sh_size
  same : ∀ n sh d r sh' d' r', Op.push n sh d r ∈ ops → Op.push n sh' d' r' ∈ ops →
    (sh.sh_type = SHT_NOBITS ↔ sh'.sh_type = SHT_NOBITS)

/-- Relocations and symbols are attached to pushed sections. (A `SectionRef` has private fields,
`src/elf.rs` 51-57: callers get them only from `push_section`.) -/
structure RefsOk (ops : List Op) : Prop where
  reloc : ∀ rel y r path, Op.reloc rel y r path ∈ ops → ∃ n sh d, Op.push n sh d r ∈ ops
  sym : ∀ s r n path y, Op.sym s (some r) n path y ∈ ops → ∃ m sh d, Op.push m sh d r ∈ ops

/-- calls as the driver makes them for well-formed object files -/
structure GoodInputs (ops : List Op) : Prop where
  flags : FlagsOk ops
  dynamic : NoDynamicPush ops
  clean : CleanInputs ops
  refs : RefsOk ops

/-- no dynamic symbol is a section symbol -/
def NamedDyns (ops : List Op) : Prop := ∀ s n path r, Op.dynsym s n path r ∈ ops → stType s.st_info ≠ STT_SECTION

/-- no symbol name contains a NUL: names come from string tables, where NUL ends a name; dynamic symbols have names -/
structure SymsClean (ops : List Op) : Prop where
  sym : ∀ s sec n path r, Op.sym s sec n path r ∈ ops → (0 : UInt8) ∉ n
  dyn : ∀ s n path r, Op.dynsym s n path r ∈ ops → (0 : UInt8) ∉ n
  nonempty : ∀ s n path r, Op.dynsym s n path r ∈ ops → n ≠ []

/-- what the section contributes to the file -/
def contents (s : Section) : Bytes := s.chunks.flatMap (·.data)

end Dld
