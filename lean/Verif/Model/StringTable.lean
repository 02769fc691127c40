import Verif.Model.Serialize
/-! # `src/elf/string_table.rs` -/
namespace Dld

/-- `string_table::Entry` (`src/elf/string_table.rs` 9-14) -/
structure Entry where
  index : Nat
  offset : Nat
  new : Bool
  deriving DecidableEq, Repr

/-- `StringTable` (`src/elf/string_table.rs` 16-22). `names` maps a name to (index, offset);
entries are kept in insertion order. -/
structure StringTable where
  names : List (Name × (Nat × Nat))
  totalLen : Nat
  sectionStrtab : Option Nat
  deriving DecidableEq, Repr

namespace StringTable

/-- `StringTable::get_or_create` (`src/elf/string_table.rs` 40-54) -/
def getOrCreate (t : StringTable) (name : Name) : Entry × StringTable :=
  match AMap.get? t.names name with
  | some (i, off) => ({ index := i, offset := off, new := false }, t)
  | none =>
    ({ index := t.names.length, offset := t.totalLen, new := true },
     { t with names := t.names ++ [(name, (t.names.length, t.totalLen))],
              totalLen := t.totalLen + (name.length + 1) })

/-- `impl Default for StringTable` (`src/elf/string_table.rs` 24-30) -/
def default : StringTable :=
  (getOrCreate { names := [], totalLen := 0, sectionStrtab := none } []).2

/-- `StringTable::with_name` (`src/elf/string_table.rs` 33-38) -/
def withName (name : Name) : StringTable :=
  let (e, t) := default.getOrCreate name
  { t with sectionStrtab := some e.offset }

/-- `StringTable::get` (`src/elf/string_table.rs` 56-59) -/
def get (t : StringTable) (name : Name) : Option Entry :=
  (AMap.get? t.names name).map fun (i, o) => { index := i, offset := o, new := false }

/-- `StringTable::sh_name` (`src/elf/string_table.rs` 61-63) -/
def shName (t : StringTable) (name : Name) : Option Nat :=
  (AMap.get? t.names name).map fun e => u32 e.2

/-- `StringTable::name` (`src/elf/string_table.rs` 65-67) on an explicit iteration order
`entries` of the map. -/
def nameIn (entries : List (Name × (Nat × Nat))) (offset : Nat) : Option Name :=
  (entries.find? fun e => e.2.2 == offset).map (·.1)

/-- `StringTable::name` with the insertion order; `C05` shows that every iteration order gives the
same answer. -/
def name (t : StringTable) (offset : Nat) : Option Name := nameIn t.names offset

/-- `StringTable::sorted_names` (`src/elf/string_table.rs` 73-82) on an explicit iteration order. -/
def sortedNamesIn (entries : List (Name × (Nat × Nat))) : List (Name × (Nat × Nat)) :=
  stableSort (fun a b => decide (a.2.2 ≤ b.2.2)) entries

/-- `StringTable::chunk` (`src/elf/string_table.rs` 84-91): the data of the chunk, on an explicit
iteration order. -/
def chunkIn (entries : List (Name × (Nat × Nat))) : Bytes :=
  (sortedNamesIn entries).flatMap fun e => serName e.1

/-- `StringTable::chunk` with the insertion order; `C04` shows that every iteration order gives the
same bytes. -/
def chunk (t : StringTable) : Bytes := chunkIn t.names

end StringTable
end Dld
