import Verif.Model.Reloc
/-! # `Chunk` (`src/elf/chunk.rs`) and `Section` (`src/elf/section.rs`) -/
namespace Dld

/-- `Chunk` (`src/elf/chunk.rs` 10-16). `symbols` is a `HashSet`: no duplicates, insertion order. -/
structure Chunk where
  address : Option Nat := none
  data : Bytes
  symbols : List SymbolRef := []
  relocations : List (Rela × SymbolRef) := []
  deriving DecidableEq, Repr

namespace Chunk

/-- `Chunk::add_symbol` (`src/elf/chunk.rs` 23-25): `HashSet::insert` -/
def addSymbol (c : Chunk) (r : SymbolRef) : Chunk :=
  if r ∈ c.symbols then c else { c with symbols := c.symbols ++ [r] }

/-- `Chunk::add_relocation` (`src/elf/chunk.rs` 27-29) -/
def addRelocation (c : Chunk) (rel : Rela) (r : SymbolRef) : Chunk :=
  { c with relocations := c.relocations ++ [(rel, r)] }

/-- `Chunk::apply_relocations` (`src/elf/chunk.rs` 43-61) -/
def applyRelocations (c : Chunk) (got plt : Nat) (table dynTable : SymbolTable) : M Chunk := do
  let data ← foldM' (fun data (e : Rela × SymbolRef) => do
      let addr ← unwrap c.address
      let symbol ← unwrap (table.get e.2)
      applyRelocation addr data e.1 symbol dynTable got plt)
    c.data c.relocations
  .ok { c with data := data }

end Chunk

/-- Which `SynthesizedKind` a section carries (`src/elf/section.rs` 65-72), or none. The payloads
are fields of the writer model: each is attached to one section when it is built
(`src/elf.rs` 241-322) and only ever reached through it. -/
inductive Kind where
  | plain | plt | shstr | symstr | dynstr | hash | gnuHash | symtab | dynsym | copyRel
  deriving DecidableEq, Repr

/-- `Section` (`src/elf/section.rs` 145-154). `ptr` is the identity of the `Arc`; `link` the `ptr` of
the linked section. -/
structure Section where
  ptr : Nat
  index : Nat := 0
  link : Option Nat := none
  kind : Kind := .plain
  sh : SectionHeader
  chunks : List Chunk := []
  deriving DecidableEq, Repr

/-- `SectionRef` (`src/elf.rs` 51-57) -/
structure SectionRef where
  ptr : Nat
  chunk : Nat
  deriving DecidableEq, Repr

namespace Section

/-- `Section::add_chunk` (`src/elf/section.rs` 165-168): the section; the returned index is the old
number of chunks. -/
def addChunk (s : Section) (data : Bytes) : Section := { s with chunks := s.chunks ++ [{ data }] }

/-- `Section::size_on_disk` (`src/elf/section.rs` 178-184) -/
def sizeOnDisk (s : Section) : Nat := if s.sh.sh_type ≠ SHT_NOBITS then s.sh.sh_size else 0

/-- the chunk loop of `Section::set_address` (`src/elf/section.rs` 197-200) -/
def setChunkAddrs : Nat → List Chunk → List Chunk
  | _, [] => []
  | base, c :: cs => { c with address := some base } :: setChunkAddrs (base + c.data.length) cs

/-- `Section::set_address` (`src/elf/section.rs` 194-201) -/
def setAddress (s : Section) (addr : Nat) : Section :=
  { s with sh := { s.sh with sh_addr := addr }, chunks := setChunkAddrs addr s.chunks }

/-- the inner loop of `patch_symbol_values` (`src/elf/section.rs` 207-216): the symbols of one chunk
based at `base`. The symbols of a chunk are distinct, so the iteration order of the `HashSet` does
not matter. -/
def patchSymbols (base shIndex : Nat) (table : SymbolTable) (syms : List SymbolRef) : SymbolTable :=
  syms.foldl (fun t r => t.modify r (fun s =>
    { s with sym := { s.sym with
        st_shndx := shIndex
        st_value := match r with
          | .section _ _ => base
          | .named _ => s.sym.st_value + base } })) table

/-- the outer loop of `patch_symbol_values` (`src/elf/section.rs` 206-218) -/
def patchChunks (shIndex : Nat) : Nat → SymbolTable → List Chunk → SymbolTable
  | _, t, [] => t
  | base, t, c :: cs =>
    patchChunks shIndex (base + c.data.length) (patchSymbols base shIndex t c.symbols) cs

/-- `Section::patch_symbol_values` (`src/elf/section.rs` 203-219) -/
def patchSymbolValues (s : Section) (t : SymbolTable) : SymbolTable :=
  patchChunks (u16 s.index) s.sh.sh_addr t s.chunks

/-- `section.write().chunk_mut(i)` and an update: panics when there is no such chunk. -/
def modifyChunk (s : Section) (i : Nat) (f : Chunk → Chunk) : M Section :=
  if i < s.chunks.length then .ok { s with chunks := s.chunks.modify i f } else .error .panic

end Section
end Dld
