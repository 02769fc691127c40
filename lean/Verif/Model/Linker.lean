import Verif.Model.Writer
/-! # `src/lib.rs`: the driver

The parsers (`goblin::elf::Elf::parse`, `goblin::archive::Archive::parse`) and the file system are
the parameter `Env`; their results are the structures below.
-/
namespace Dld

/-- `goblin::elf::Reloc` -/
structure InReloc where
  r_offset : Nat
  r_addend : Option Int
  r_sym : Nat
  r_type : Nat
  deriving DecidableEq, Repr

/-- What the crate uses of `goblin::elf::Elf`. `secName`, `symName`, `dynName` are
`shdr_strtab.get_at`, `strtab.get_at`, `dynstrtab.get_at`. -/
structure ElfFile where
  isObjectFile : Bool
  sectionHeaders : List SectionHeader
  secName : Nat → Option Name
  syms : List Sym
  symName : Nat → Option Name
  shdrRelocs : List (Nat × List InReloc)
  dynsyms : List Sym
  dynName : Nat → Option Name

/-- What the crate uses of `goblin::archive::Archive` (`src/lib.rs` 197, 205, 211-213): the symbol
index (a map from names to members), and the bytes of a member found with `get` (`none` also when
they are outside the file, a panic). -/
structure ArFile where
  index : List (Name × Bytes)
  get : Bytes → Option Bytes

/-- `Archive::member_of_symbol` (called in `src/lib.rs` 205) -/
def ArFile.memberOfSymbol (ar : ArFile) (n : Name) : Option Bytes := AMap.get? ar.index n

/-- The outside world: reading a file, parsing it. -/
structure Env where
  read : Path → Option Bytes
  parseElf : Bytes → Option ElfFile
  parseAr : Bytes → Option ArFile

/-- Iteration orders of the hash tables of the driver: `undefLib r i` is the order of `undefines` in
round `r` when library `i` is searched (`src/lib.rs` 165), `undefAr r i` the same for archive `i`
(`src/lib.rs` 199), `members r i` the order of the members to link (`src/lib.rs` 210), `archives` the
order of `self.archives` (`src/lib.rs` 194). -/
structure LinkSched extends Sched where
  undefLib : Nat → Nat → List SymbolRef → List SymbolRef
  undefAr : Nat → Nat → List SymbolRef → List SymbolRef
  members : Nat → Nat → List Bytes → List Bytes
  archives : List Path → List Path

/-- Every entry is visited exactly once. -/
structure LinkSched.Valid (s : LinkSched) : Prop where
  toSched : s.toSched.Valid
  undefLib : ∀ r i l, (s.undefLib r i l).Perm l
  undefAr : ∀ r i l, (s.undefAr r i l).Perm l
  members : ∀ r i l, (s.members r i l).Perm l
  archives : ∀ l, (s.archives l).Perm l

/-- insertion order everywhere -/
def LinkSched.id : LinkSched :=
  { Sched.id with
    undefLib := fun _ _ l => l, undefAr := fun _ _ l => l, members := fun _ _ l => l
    archives := fun l => l }

/-- `Linker` (`src/lib.rs` 147-151) -/
structure Linker where
  options : Options
  objects : List Path
  archives : List Path
  deriving Repr

namespace Linker

/-- `.map_path_err(path)?` on a missing value -/
def orErr {α} (path : Path) (k : ErrKind) : Option α → M α
  | some a => .ok a
  | none => .error (.err path k)

/-- `SKIPPED_SECTIONS` (`src/lib.rs` 26-27) -/
def skippedSections : List Nat :=
  [SHT_SYMTAB, SHT_DYNSYM, SHT_STRTAB, SHT_RELA, SHT_DYNAMIC, SHT_REL, SHT_SHLIB]

/-- The key under which `Symbol(Sym)` is hashed and compared (`src/lib.rs` 29-51): the value is not
part of it. -/
def symKey (s : Sym) : Nat × Nat × Nat × Nat × Nat :=
  (s.st_name, s.st_info, s.st_other, s.st_shndx, s.st_size)

/-- `ElfObject` (`src/lib.rs` 58-63) -/
structure Obj where
  path : Path
  data : Bytes
  elf : ElfFile
  sectionRelocations : List (Nat × SectionRef) := []
  symbols : List ((Nat × Nat × Nat × Nat × Nat) × SymbolRef) := []

/-- `section.file_range().map(|r| &self.input.data[r])` (`src/lib.rs` 90): no range for
`SHT_NOBITS` (goblin), otherwise the bytes, a panic when they are not all there. -/
def sectionData (data : Bytes) (sh : SectionHeader) : M (Option Bytes) :=
  if sh.sh_type = SHT_NOBITS then .ok none
  else if sh.sh_offset + sh.sh_size ≤ data.length then
    .ok (some ((data.drop sh.sh_offset).take sh.sh_size))
  else .error .panic

/-- The loop body of `process_sections` (`src/lib.rs` 78-100) for section number `i`. -/
def processSection (st : Obj × Writer) (e : SectionHeader × Nat) : M (Obj × Writer) :=
  let (o, w) := st
  let (sh, i) := e
  if sh.sh_type ∈ skippedSections then .ok st
  else do
    let name ← orErr o.path .strtab (o.elf.secName sh.sh_name)
    let data ← sectionData o.data sh
    let (w, r) ← w.pushSection name sh data
    .ok ({ o with sectionRelocations := AMap.insert o.sectionRelocations i r }, w)

/-- `process_sections` (`src/lib.rs` 77-102) -/
def processSections (o : Obj) (w : Writer) : M (Obj × Writer) :=
  foldM' processSection (o, w) o.elf.sectionHeaders.zipIdx

/-- The loop body of `process_symbols` (`src/lib.rs` 107-116) -/
def processSymbol (st : Obj × Writer) (symbol : Sym) : M (Obj × Writer) := do
  let (o, w) := st
  let name ← orErr o.path .strtab (o.elf.symName symbol.st_name)
  let secRef := AMap.get? o.sectionRelocations symbol.st_shndx
  let (w, r) ← w.addSymbol symbol secRef name o.path
  .ok ({ o with symbols := AMap.insert o.symbols (symKey symbol) r }, w)

/-- `process_symbols` (`src/lib.rs` 104-118) -/
def processSymbols (o : Obj) (w : Writer) : M (Obj × Writer) :=
  foldM' processSymbol (o, w) o.elf.syms

/-- The loop body of `process_relocations` (`src/lib.rs` 123-141) -/
def processReloc (o : Obj) (sectionIndex : Nat) (w : Writer) (rel : InReloc) : M Writer :=
  if rel.r_sym = 0 then .ok w
  else do
    let symbol ← unwrap o.elf.syms[rel.r_sym]?
    if sectionIndex = 0 then .error .panic
    else
      match AMap.get? o.sectionRelocations (sectionIndex - 1) with
      | none => .ok w
      | some sr =>
        match AMap.get? o.symbols (symKey symbol) with
        | none => .ok w
        | some r =>
          w.addRelocation
            { r_offset := rel.r_offset, r_info := rel.r_sym * 2 ^ 32 + rel.r_type,
              r_addend := rel.r_addend.getD 0 } r sr o.path

/-- `process_relocations` (`src/lib.rs` 120-144) -/
def processRelocations (o : Obj) (w : Writer) : M Writer :=
  foldM' (fun w (e : Nat × List InReloc) => foldM' (processReloc o e.1) w e.2) w o.elf.shdrRelocs

/-- `to_elf_object` (`src/lib.rs` 66-69) -/
def toElfObject (env : Env) (path : Path) (data : Bytes) : M (Option Obj) := do
  let elf ← orErr path .input (env.parseElf data)
  .ok (if elf.isObjectFile then some { path, data, elf } else none)

/-! ## Shared libraries -/

/-- The loop over the dynamic symbols of a library for one undefined name
(`src/lib.rs` 171-180): the writer and whether the name was found. -/
def matchDynsym (elf : ElfFile) (path : Path) (name : Name) (st : Writer × Bool) (sym : Sym) :
    M (Writer × Bool) := do
  let inner ← orErr path .strtab (elf.dynName sym.st_name)
  if name = inner then
    let (w, _) ← st.1.addDynSymbol sym inner path
    let file ← unwrap path.file
    .ok (w.addNeeded file, true)
  else .ok st

/-- The loop body over the undefined symbols (`src/lib.rs` 165-181): collects the entries found. -/
def searchLibEntry (elf : ElfFile) (path : Path) (st : Writer × List SymbolRef) (r : SymbolRef) :
    M (Writer × List SymbolRef) := do
  match ← st.1.symbolName r with
  | none => .ok st
  | some name =>
    let (w, found) ← foldM' (matchDynsym elf path name) (st.1, false) elf.dynsyms
    .ok (w, if found then st.2 ++ [r] else st.2)

/-- The loop body over the libraries (`src/lib.rs` 161-183). -/
def searchLib (env : Env) (order : Nat → List SymbolRef → List SymbolRef)
    (st : Writer × List SymbolRef) (e : Path × Nat) : M (Writer × List SymbolRef) := do
  let (w, undefines) := st
  let (path, i) := e
  let data ← orErr path .input (env.read path)
  let elf ← unwrap (env.parseElf data)
  let (w, found) ← foldM' (searchLibEntry elf path) (w, []) (order i undefines)
  .ok (w, undefines.filter fun r => r ∉ found)

/-- `find_undefined_symbols_in_libs` (`src/lib.rs` 154-185) -/
def findInLibs (env : Env) (l : Linker) (order : Nat → List SymbolRef → List SymbolRef)
    (symbols : List SymbolRef) (w : Writer) : M (Writer × List SymbolRef) :=
  foldM' (searchLib env order) (w, symbols) (l.options.sharedLibs.map (·.1)).zipIdx

/-! ## Archives -/

/-- The loop body over the undefined symbols (`src/lib.rs` 199-209): the entries found and the
members that define them. -/
def searchArEntry (ar : ArFile) (w : Writer) (st : List SymbolRef × List Bytes) (r : SymbolRef) :
    M (List SymbolRef × List Bytes) := do
  match ← w.symbolName r with
  | none => .ok st
  | some name =>
    match ar.memberOfSymbol name with
    | none => .ok st
    | some m => .ok (st.1 ++ [r], if m ∈ st.2 then st.2 else st.2 ++ [m])

/-- Linking one member (`src/lib.rs` 211-218) -/
def linkMember (env : Env) (path : Path) (ar : ArFile) (w : Writer) (member : Bytes) : M Writer := do
  let data ← unwrap (ar.get member)
  let obj ← toElfObject env path data
  let o ← unwrap obj
  let (o, w) ← processSections o w
  let (o, w) ← processSymbols o w
  processRelocations o w

/-- The loop body over the archives (`src/lib.rs` 194-221) -/
def searchArchive (env : Env) (orderU : Nat → List SymbolRef → List SymbolRef)
    (orderM : Nat → List Bytes → List Bytes) (st : Writer × List SymbolRef) (e : Path × Nat) :
    M (Writer × List SymbolRef) := do
  let (w, undefines) := st
  let (path, i) := e
  let data ← orErr path .input (env.read path)
  let ar ← orErr path .input (env.parseAr data)
  let (found, members) ← foldM' (searchArEntry ar w) ([], []) (orderU i undefines)
  let w ← foldM' (linkMember env path ar) w (orderM i members)
  .ok (w, undefines.filter fun r => r ∉ found)

/-- `process_archives_containing` (`src/lib.rs` 187-223) -/
def processArchives (env : Env) (l : Linker) (sched : LinkSched) (round : Nat)
    (symbols : List SymbolRef) (w : Writer) : M (Writer × List SymbolRef) :=
  foldM' (searchArchive env (sched.undefAr round) (sched.members round)) (w, symbols)
    (sched.archives l.archives).zipIdx

/-! ## `link` -/

/-- One round of the resolution loop (`src/lib.rs` 252-253): the writer and the number of symbols
still in the list. -/
def resolveRound (env : Env) (l : Linker) (sched : LinkSched) (round : Nat)
    (undefined : List SymbolRef) (w : Writer) : M (Writer × Nat) := do
  let (w, next) ← findInLibs env l (sched.undefLib round) undefined w
  let (w, next) ← processArchives env l sched round next w
  .ok (w, next.length)

/-- The resolution loop (`src/lib.rs` 251-260); `none` when it has not ended after `fuel` rounds. -/
def resolveLoop (env : Env) (l : Linker) (sched : LinkSched) :
    (fuel round : Nat) → List SymbolRef → Writer → Option (M Writer)
  | 0, _, _, _ => none
  | fuel + 1, round, undefined, w =>
    match resolveRound env l sched round undefined w with
    | .error e => some (.error e)
    | .ok (w, n) =>
      if undefined.length = n then some (.ok w)
      else resolveLoop env l sched fuel (round + 1) (w.undefinedSymbols sched.symIter) w

/-- `read` of every object (`src/lib.rs` 229-233) -/
def readAll (env : Env) : List Path → M (List (Path × Bytes))
  | [] => .ok []
  | p :: ps => do
    let d ← orErr p .input (env.read p)
    let r ← readAll env ps
    .ok ((p, d) :: r)

/-- Parsing the objects and their sections (`src/lib.rs` 239-245) -/
def loadObjects (env : Env) (st : List Obj × Writer) (e : Path × Bytes) : M (List Obj × Writer) := do
  match ← toElfObject env e.1 e.2 with
  | none => .ok st
  | some o =>
    let (o, w) ← processSections o st.2
    .ok (st.1 ++ [o], w)

/-- Symbols and relocations of the objects (`src/lib.rs` 246-249) -/
def loadSymbols (w : Writer) (o : Obj) : M Writer := do
  let (o, w) ← processSymbols o w
  processRelocations o w

/-- The part of `link` before the resolution loop (`src/lib.rs` 228-249), after `Writer::new`. -/
def loadAll (env : Env) (l : Linker) (w : Writer) : M Writer := do
  let inputs ← readAll env l.objects
  let (objs, w) ← foldM' (loadObjects env) ([], w) inputs
  foldM' loadSymbols w objs

/-- The names listed in the error about unresolved symbols (`src/lib.rs` 264-267) -/
def undefinedNames (w : Writer) : List SymbolRef → M (List Name)
  | [] => .ok []
  | r :: rs => do
    let n ← w.symbolName r
    let ns ← undefinedNames w rs
    .ok (n.toList ++ ns)

/-- The part of `link` after the resolution loop (`src/lib.rs` 261-272): the bytes of the output. -/
def finish (l : Linker) (sched : LinkSched) (w : Writer) : M Bytes := do
  let w ← w.computeSections sched.toSched
  let undefined := w.undefinedSymbols sched.symIter
  if undefined ≠ [] then
    let names ← undefinedNames w undefined
    .error (.err l.options.output (.undefined names))
  else
    let (bytes, _) ← w.writeToDisk sched.toSched
    .ok bytes

/-- `link` (`src/lib.rs` 225-273) once the output file could be created. `none` when the
resolution loop does not end within `fuel` rounds. -/
def link (env : Env) (l : Linker) (sched : LinkSched) (fuel : Nat) : Option (M Bytes) :=
  match Writer.new l.options with
  | .error e => some (.error e)
  | .ok w =>
    match loadAll env l w with
    | .error e => some (.error e)
    | .ok w =>
      match resolveLoop env l sched fuel 0 (w.undefinedSymbols sched.symIter) w with
      | none => none
      | some (.error e) => some (.error e)
      | some (.ok w) => some (finish l sched w)

end Linker
end Dld
