import Verif.Model.Serialize
import Verif.Lemmas.Bytes
/-! # C46, C47: the on-disk structures round trip -/
namespace Dld
open Spec

/-- skip fields until the wanted one is first, then read it -/
local macro "read_field" : tactic => `(tactic| (
  repeat (rw [field_skip _ (length_le _ _) (by decide)])
  first
    | exact field_head _ (by assumption)
    | (rw [← List.append_nil (le _ _)]; exact field_head _ (by assumption))))

/-- The fields of a file header fit their widths. -/
structure Header.Fits (h : Header) : Prop where
  ident : h.e_ident.length = 16
  type : h.e_type < 256 ^ 2
  machine : h.e_machine < 256 ^ 2
  version : h.e_version < 256 ^ 4
  entry : h.e_entry < 256 ^ 8
  phoff : h.e_phoff < 256 ^ 8
  shoff : h.e_shoff < 256 ^ 8
  flags : h.e_flags < 256 ^ 4
  ehsize : h.e_ehsize < 256 ^ 2
  phentsize : h.e_phentsize < 256 ^ 2
  phnum : h.e_phnum < 256 ^ 2
  shentsize : h.e_shentsize < 256 ^ 2
  shnum : h.e_shnum < 256 ^ 2
  shstrndx : h.e_shstrndx < 256 ^ 2

/-- **C46**: whatever follows in the file, the first 64 bytes decode by the ELF64 layout to the
header that was serialised. -/
theorem C46_header_roundtrip (h : Header) (rest : Bytes) (hf : h.Fits) :
    (serHeader h).length = 64 ∧
    decodeEhdr (serHeader h ++ rest) =
      { ident := h.e_ident, type := h.e_type, machine := h.e_machine, version := h.e_version
        entry := h.e_entry, phoff := h.e_phoff, shoff := h.e_shoff, flags := h.e_flags
        ehsize := h.e_ehsize, phentsize := h.e_phentsize, phnum := h.e_phnum
        shentsize := h.e_shentsize, shnum := h.e_shnum, shstrndx := h.e_shstrndx } := by
  obtain ⟨h0, h1, h2, h3, h4, h5, h6, h7, h8, h9, h10, h11, h12, h13⟩ := hf
  refine ⟨by simp [serHeader, h0], ?_⟩
  unfold decodeEhdr serHeader
  simp only [List.append_assoc, EHdr.mk.injEq]
  refine ⟨?_, ?_, ?_, ?_, ?_, ?_, ?_, ?_, ?_, ?_, ?_, ?_, ?_, ?_⟩
  · rw [slice_append_left (by simp [h0]), slice_self h0]
  all_goals
    rw [field_skip _ h0 (by decide)]
    read_field

/-- a header as the writer produces it -/
example : (Header.Fits
    { e_ident := ELFMAG ++ [2, 1, 1, 0, 0, 0, 0, 0, 0, 0, 0, 0], e_type := 2, e_machine := 62
      e_version := 1, e_entry := 0x201000, e_phoff := 64, e_shoff := 8462, e_flags := 0
      e_ehsize := 64, e_phentsize := 56, e_phnum := 6, e_shentsize := 64, e_shnum := 18
      e_shstrndx := 17 }) := by
  constructor <;> decide

/-- The fields of a program header fit their widths. -/
structure ProgramHeader.Fits (p : ProgramHeader) : Prop where
  type : p.p_type < 256 ^ 4
  flags : p.p_flags < 256 ^ 4
  offset : p.p_offset < 256 ^ 8
  vaddr : p.p_vaddr < 256 ^ 8
  paddr : p.p_paddr < 256 ^ 8
  filesz : p.p_filesz < 256 ^ 8
  memsz : p.p_memsz < 256 ^ 8
  align : p.p_align < 256 ^ 8

/-- The fields of a section header fit their widths. -/
structure SectionHeader.Fits (s : SectionHeader) : Prop where
  name : s.sh_name < 256 ^ 4
  type : s.sh_type < 256 ^ 4
  flags : s.sh_flags < 256 ^ 8
  addr : s.sh_addr < 256 ^ 8
  offset : s.sh_offset < 256 ^ 8
  size : s.sh_size < 256 ^ 8
  link : s.sh_link < 256 ^ 4
  info : s.sh_info < 256 ^ 4
  addralign : s.sh_addralign < 256 ^ 8
  entsize : s.sh_entsize < 256 ^ 8

/-- The fields of a symbol fit their widths. -/
structure Sym.Fits (s : Sym) : Prop where
  name : s.st_name < 256 ^ 4
  info : s.st_info < 256 ^ 1
  other : s.st_other < 256 ^ 1
  shndx : s.st_shndx < 256 ^ 2
  value : s.st_value < 256 ^ 8
  size : s.st_size < 256 ^ 8

/-- The fields of a relocation fit their widths. -/
structure Rela.Fits (r : Rela) : Prop where
  offset : r.r_offset < 256 ^ 8
  info : r.r_info < 256 ^ 8
  lo : -(256 ^ 8 / 2 : Nat) ≤ r.r_addend
  hi : r.r_addend < (256 ^ 8 / 2 : Nat)

/-- what the decoder should return for a program header -/
def ProgramHeader.toSpec (p : ProgramHeader) : EPhdr :=
  { type := p.p_type, flags := p.p_flags, offset := p.p_offset, vaddr := p.p_vaddr
    paddr := p.p_paddr, filesz := p.p_filesz, memsz := p.p_memsz, align := p.p_align }

/-- what the decoder should return for a section header -/
def SectionHeader.toSpec (s : SectionHeader) : EShdr :=
  { name := s.sh_name, type := s.sh_type, flags := s.sh_flags, addr := s.sh_addr
    offset := s.sh_offset, size := s.sh_size, link := s.sh_link, info := s.sh_info
    addralign := s.sh_addralign, entsize := s.sh_entsize }

/-- what the decoder should return for a symbol -/
def Sym.toSpec (s : Sym) : ESym :=
  { name := s.st_name, info := s.st_info, other := s.st_other, shndx := s.st_shndx
    value := s.st_value, size := s.st_size }

/-- what the decoder should return for a relocation -/
def Rela.toSpec (r : Rela) : ERela :=
  { offset := r.r_offset, sym := r.r_info / 2 ^ 32, type := r.r_info % 2 ^ 32, addend := r.r_addend }

theorem decodeSym_drop (img : Bytes) (off : Nat) : decodeSym img off = decodeSym (img.drop off) 0 := by
  simp only [decodeSym, Nat.zero_add, field_drop img off, ← field_drop0]

theorem decodePhdr_drop (img : Bytes) (off : Nat) :
    decodePhdr img off = decodePhdr (img.drop off) 0 := by
  simp only [decodePhdr, Nat.zero_add, field_drop img off, ← field_drop0]

theorem decodeShdr_drop (img : Bytes) (off : Nat) :
    decodeShdr img off = decodeShdr (img.drop off) 0 := by
  simp only [decodeShdr, Nat.zero_add, field_drop img off, ← field_drop0]

theorem decodeDyn_drop (img : Bytes) (off : Nat) :
    decodeDyn img off = decodeDyn (img.drop off) 0 := by
  simp only [decodeDyn, Nat.zero_add, field_drop img off, ← field_drop0]

theorem decodeRela_drop (img : Bytes) (off : Nat) :
    decodeRela img off = decodeRela (img.drop off) 0 := by
  simp only [decodeRela, sfield, Nat.zero_add, field_drop img off, ← field_drop0]

theorem decodeSym_ser (s : Sym) (h : s.Fits) (rest : Bytes) :
    decodeSym (serSym s ++ rest) 0 = s.toSpec := by
  obtain ⟨h0, h1, h2, h3, h4, h5⟩ := h
  unfold decodeSym serSym Sym.toSpec
  simp only [List.append_assoc, ESym.mk.injEq, Nat.zero_add]
  refine ⟨?_, ?_, ?_, ?_, ?_, ?_⟩
  all_goals read_field

theorem decodePhdr_ser (p : ProgramHeader) (h : p.Fits) (rest : Bytes) :
    decodePhdr (serProgramHeader p ++ rest) 0 = p.toSpec := by
  obtain ⟨h0, h1, h2, h3, h4, h5, h6, h7⟩ := h
  unfold decodePhdr serProgramHeader ProgramHeader.toSpec
  simp only [List.append_assoc, EPhdr.mk.injEq, Nat.zero_add]
  refine ⟨?_, ?_, ?_, ?_, ?_, ?_, ?_, ?_⟩
  all_goals read_field

theorem decodeShdr_ser (s : SectionHeader) (h : s.Fits) (rest : Bytes) :
    decodeShdr (serSectionHeader s ++ rest) 0 = s.toSpec := by
  obtain ⟨h0, h1, h2, h3, h4, h5, h6, h7, h8, h9⟩ := h
  unfold decodeShdr serSectionHeader SectionHeader.toSpec
  simp only [List.append_assoc, EShdr.mk.injEq, Nat.zero_add]
  refine ⟨?_, ?_, ?_, ?_, ?_, ?_, ?_, ?_, ?_, ?_⟩
  all_goals read_field

theorem decodeDyn_ser (d : DynTag × Nat) (h : d.2 < 256 ^ 8) (rest : Bytes) :
    decodeDyn (serDyn d ++ rest) 0 = (d.1.toNat, d.2) := by
  have h0 : d.1.toNat < 256 ^ 8 := by cases d.1 <;> decide
  unfold decodeDyn serDyn
  simp only [List.append_assoc, Prod.mk.injEq, Nat.zero_add]
  refine ⟨?_, ?_⟩
  all_goals read_field

theorem le_split (k m n : Nat) : le (k + m) n = le k n ++ le m (n / 256 ^ k) := by
  induction k generalizing n with
  | zero => simp [le]
  | succ k ih =>
    rw [show k + 1 + m = (k + m) + 1 by omega, le, ih, le, Nat.div_div_eq_div_mul, Nat.pow_succ,
      Nat.mul_comm 256]
    simp

theorem fromLe_le_mod (k n : Nat) (rest : Bytes) : field (le k n ++ rest) 0 k = n % 256 ^ k := by
  rw [field, slice_append_left (by simp), slice_self (by simp), fromLe_le]

theorem decodeRela_ser (r : Rela) (h : r.Fits) (rest : Bytes) :
    decodeRela (serRela r ++ rest) 0 = r.toSpec := by
  obtain ⟨h0, h1, h2, h3⟩ := h
  unfold decodeRela serRela Rela.toSpec
  simp only [List.append_assoc, ERela.mk.injEq, Nat.zero_add]
  refine ⟨field_head _ h0, ?_, ?_, ?_⟩
  · rw [field_skip _ (length_le _ _) (by decide), show (8 : Nat) = 4 + 4 from rfl, le_split,
      List.append_assoc, field_skip _ (length_le _ _) (by decide)]
    rw [show 12 - (4 + 4) - 4 = 0 from rfl, fromLe_le_mod]
    have : r.r_info / 256 ^ 4 < 256 ^ 4 := by omega
    rw [Nat.mod_eq_of_lt this]
  · rw [field_skip _ (length_le _ _) (by decide), show (8 : Nat) = 4 + 4 from rfl, le_split,
      List.append_assoc]
    exact fromLe_le_mod 4 _ _
  · rw [sfield, field_skip _ (length_le _ _) (by decide), field_skip _ (length_le _ _) (by decide)]
    exact sfield_head (k := 8) (by decide) rest h2 h3

/-- **C47**: program headers, section headers, RELA and dynamic entries written anywhere in an image
decode by the ELF64 layout to the entry, and their length is the advertised entry size. -/
theorem C47_entries_roundtrip (pre post : Bytes) :
    (∀ p : ProgramHeader, p.Fits →
      (serProgramHeader p).length = sizeofProgramHeader ∧
      decodePhdr (pre ++ serProgramHeader p ++ post) pre.length = p.toSpec) ∧
    (∀ s : SectionHeader, s.Fits →
      (serSectionHeader s).length = sizeofSectionHeader ∧
      decodeShdr (pre ++ serSectionHeader s ++ post) pre.length = s.toSpec) ∧
    (∀ s : Sym, s.Fits →
      (serSym s).length = sizeofSym ∧ decodeSym (pre ++ serSym s ++ post) pre.length = s.toSpec) ∧
    (∀ r : Rela, r.Fits →
      (serRela r).length = sizeofRela ∧
      decodeRela (pre ++ serRela r ++ post) pre.length = r.toSpec) ∧
    (∀ d : DynTag × Nat, d.2 < 256 ^ 8 →
      (serDyn d).length = 16 ∧
      decodeDyn (pre ++ serDyn d ++ post) pre.length = (d.1.toNat, d.2)) := by
  refine ⟨fun p h => ⟨by simp [serProgramHeader, sizeofProgramHeader], ?_⟩,
    fun s h => ⟨by simp [serSectionHeader, sizeofSectionHeader], ?_⟩,
    fun s h => ⟨by simp [serSym, sizeofSym], ?_⟩,
    fun s h => ⟨by simp [serRela, sizeofRela], ?_⟩,
    fun s h => ⟨by simp [serDyn], ?_⟩⟩
  · rw [decodePhdr_drop, List.append_assoc, List.drop_left]; exact decodePhdr_ser p h post
  · rw [decodeShdr_drop, List.append_assoc, List.drop_left]; exact decodeShdr_ser s h post
  · rw [decodeSym_drop, List.append_assoc, List.drop_left]; exact decodeSym_ser s h post
  · rw [decodeRela_drop, List.append_assoc, List.drop_left]; exact decodeRela_ser s h post
  · rw [decodeDyn_drop, List.append_assoc, List.drop_left]; exact decodeDyn_ser s h post

/-- entries with negative addends and high addresses are in range -/
example : Rela.Fits { r_offset := 2 ^ 63, r_info := 5 * 2 ^ 32 + 7, r_addend := -4 } ∧
    Sym.Fits { st_name := 7, st_info := 18, st_shndx := 3, st_value := 2 ^ 64 - 1, st_size := 8 } :=
  ⟨by constructor <;> decide, by constructor <;> decide⟩

end Dld
