import Verif.Model.Linker
import Verif.Spec.Run
import Verif.Spec.Got
import Verif.Spec.Values
/-! # What the driver hands to the writer

The calls a link makes on the writer's interface, each with the input file and the item of that file
it was made for. `Linked` says which calls these are, in terms of the input files alone. -/
namespace Dld

/-- an input of the link -/
inductive Source where
  /-- number `i` of the object files on the command line -/
  | object (i : Nat)
  /-- a member of an archive, linked when the writer had received `start` calls -/
  | member (archive : Path) (member : Bytes) (start : Nat)
  /-- a shared library -/
  | library (path : Path)
  deriving DecidableEq, Repr

/-- an item of an input file -/
inductive Item where
  /-- section header number `i` -/
  | section (i : Nat)
  /-- symbol number `j` -/
  | symbol (j : Nat)
  /-- relocation `j` of relocation section `k` (in the order of the relocation sections) -/
  | reloc (k j : Nat)
  /-- dynamic symbol number `j` -/
  | dynsym (j : Nat)
  /-- the library itself, because of its dynamic symbol number `j` -/
  | needed (j : Nat)
  deriving DecidableEq, Repr

/-- one call of the writer's interface -/
structure Call where
  source : Source
  item : Item
  op : Op
  deriving DecidableEq, Repr

/-- the calls themselves -/
def opsOf (log : List Call) : List Op := log.map (·.op)

/-- an object file that takes part in the link -/
structure Loaded where
  source : Source
  path : Path
  data : Bytes
  elf : ElfFile

/-- The types of sections that are never copied to the output: symbol and string tables, relocations,
dynamic linking tables. -/
def auxiliaryTypes : List Nat := [2, 3, 4, 6, 9, 10, 11]

/-- the sections of the file that are copied to the output -/
def ElfFile.copied (e : ElfFile) : List (SectionHeader × Nat) :=
  e.sectionHeaders.zipIdx.filter fun x => x.1.sh_type ∉ auxiliaryTypes

/-- the relocations of the file: number of the relocation section, its position among the section
headers, position of the relocation, the relocation -/
def ElfFile.relocs (e : ElfFile) : List (Nat × Nat × Nat × InReloc) :=
  e.shdrRelocs.zipIdx.flatMap fun x => x.1.2.zipIdx.map fun y => (x.2, x.1.1, y.2, y.1)

/-- the relocations that have a symbol and whose relocation section comes right after a section that
is copied to the output -/
def ElfFile.usedRelocs (e : ElfFile) : List (Nat × Nat × Nat × InReloc) :=
  e.relocs.filter fun x => x.2.2.2.r_sym ≠ 0 ∧ x.2.1 - 1 ∈ e.copied.map (·.2)

/-- the calls for the sections of a file -/
def Loaded.sectionKeys (x : Loaded) : List (Source × Item) := x.elf.copied.map fun s => (x.source, .section s.2)

/-- the calls for the symbols and relocations of a file -/
def Loaded.otherKeys (x : Loaded) : List (Source × Item) :=
  (List.range x.elf.syms.length).map (fun j => (x.source, .symbol j)) ++
    x.elf.usedRelocs.map fun y => (x.source, .reloc y.1 y.2.2.1)

/-- calls for sections -/
def Item.isSection : Item → Bool
  | .section _ => true
  | _ => false

/-- calls for symbols and relocations -/
def Item.isOther : Item → Bool
  | .symbol _ => true
  | .reloc _ _ => true
  | _ => false

/-- the calls for sections, in order -/
def sectionCalls (log : List Call) : List (Source × Item) :=
  (log.filter fun c => c.item.isSection).map fun c => (c.source, c.item)

/-- the calls for symbols and relocations, in order -/
def otherCalls (log : List Call) : List (Source × Item) :=
  (log.filter fun c => c.item.isOther).map fun c => (c.source, c.item)

/-- the bytes of a section of a file: none for `SHT_NOBITS` (8), otherwise all of them must be there -/
def SectionBytes (data : Bytes) (sh : SectionHeader) (d : Option Bytes) : Prop :=
  if sh.sh_type = 8 then d = none
  else sh.sh_offset + sh.sh_size ≤ data.length ∧ d = some ((data.drop sh.sh_offset).take sh.sh_size)

/-- section number `i` of `src` was handed to the writer, which answered `r` -/
def SectionAt (log : List Call) (src : Source) (i : Nat) (r : SectionRef) : Prop :=
  ∃ n sh d, (⟨src, .section i, .push n sh d r⟩ : Call) ∈ log

/-- a symbol of `src` that differs from `s` at most in its value was handed to the writer, which
answered `y` -/
def SymbolAt (log : List Call) (src : Source) (s : Sym) (y : SymbolRef) : Prop :=
  ∃ j s' sec n p, (⟨src, .symbol j, .sym s' sec n p y⟩ : Call) ∈ log ∧ { s' with st_value := s.st_value } = s

/-- Why the driver makes a call after the calls `a`, the object files `loaded` having been loaded. Symbols
are handed over after all sections of their file.
`Needed q n` says that the symbol `n` had no definition after the calls `q`. -/
inductive Justified (env : Env) (l : Linker) (Needed : List Call → Name → Prop) (loaded : List Loaded) (a : List Call) :
    Call → Prop
  | section {x : Loaded} {i : Nat} {sh : SectionHeader} {n : Name} {d : Option Bytes} {r : SectionRef}
      (hx : x ∈ loaded) (hi : x.elf.sectionHeaders[i]? = some sh) (ht : sh.sh_type ∉ auxiliaryTypes)
      (hn : x.elf.secName sh.sh_name = some n) (hd : SectionBytes x.data sh d) :
      Justified env l Needed loaded a ⟨x.source, .section i, .push n sh d r⟩
  | symbol {x : Loaded} {j : Nat} {s : Sym} {n : Name} {sec : Option SectionRef} {y : SymbolRef}
      (hx : x ∈ loaded) (hj : x.elf.syms[j]? = some s) (hn : x.elf.symName s.st_name = some n)
      (hs : ∀ r, sec = some r ↔ SectionAt a x.source s.st_shndx r) (hb : ∀ i ∈ x.elf.copied.map (·.2), ∃ r, SectionAt a x.source i r) :
      Justified env l Needed loaded a ⟨x.source, .symbol j, .sym s sec n x.path y⟩
  | reloc {x : Loaded} {k j pos : Nat} {rel : InReloc} {s : Sym} {y : SymbolRef} {r : SectionRef}
      (hx : x ∈ loaded) (hk : (k, pos, j, rel) ∈ x.elf.relocs) (h0 : rel.r_sym ≠ 0)
      (hs : x.elf.syms[rel.r_sym]? = some s) (hr : SectionAt a x.source (pos - 1) r) (hy : SymbolAt a x.source s y) :
      Justified env l Needed loaded a ⟨x.source, .reloc k j,
        .reloc { r_offset := rel.r_offset, r_info := rel.r_sym * 2 ^ 32 + rel.r_type, r_addend := rel.r_addend.getD 0 }
          y r x.path⟩
  | dynsym {p : Path} {j : Nat} {data : Bytes} {e : ElfFile} {s : Sym} {n : Name} {y : SymbolRef} {q : List Call}
      (hp : p ∈ l.options.sharedLibs.map (·.1)) (hd : env.read p = some data) (he : env.parseElf data = some e)
      (hj : e.dynsyms[j]? = some s) (hn : e.dynName s.st_name = some n) (hq : q <+: a) (hm : Needed q n) :
      Justified env l Needed loaded a ⟨.library p, .dynsym j, .dynsym s n p y⟩
  | needed {p : Path} {j : Nat} {f : Name} {b : List Call} {op : Op} (hf : p.file = some f) (hb : a = b ++ [⟨.library p, .dynsym j, op⟩]) :
      Justified env l Needed loaded a ⟨.library p, .needed j, .needed f⟩

/-- no shared library given to the linker has a dynamic symbol of that name -/
def NotInLibs (env : Env) (l : Linker) (n : Name) : Prop :=
  ∀ p ∈ l.options.sharedLibs.map (·.1), ∀ data e, env.read p = some data → env.parseElf data = some e →
    ∀ s ∈ e.dynsyms, e.dynName s.st_name ≠ some n

/-- the object files given to the linker, in order -/
def objectsOf (env : Env) (l : Linker) : List Loaded :=
  l.objects.zipIdx.filterMap fun x =>
    (env.read x.1).bind fun d => (env.parseElf d).bind fun e =>
      if e.isObjectFile then some ⟨.object x.2, x.1, d, e⟩ else none

/-- Why an archive member is linked: the archive is an input, its index says that the member defines
a name that was needed and that no library has. -/
inductive FromArchive (env : Env) (l : Linker) (Needed : List Call → Name → Prop) (log : List Call) : Loaded → Prop
  | mk {p : Path} {data : Bytes} {ar : ArFile} {n : Name} {m d : Bytes} {e : ElfFile} {start : Nat} {q : List Call}
      (hp : p ∈ l.archives) (hd : env.read p = some data) (ha : env.parseAr data = some ar)
      (hn : ar.memberOfSymbol n = some m) (hm : ar.get m = some d) (he : env.parseElf d = some e)
      (ho : e.isObjectFile = true) (hs : start ≤ log.length) (hq : q <+: log.take start) (hu : Needed q n) (hl : NotInLibs env l n) :
      FromArchive env l Needed log ⟨.member p m start, p, d, e⟩

/-- After the calls `ops` the symbol `n` has no definition: it is mentioned without one
by a global or weak symbol, no object file
has a global definition of it, and no library has been found to have it. -/
structure Unresolved (ops : List Op) (n : Name) : Prop where
  wanted : ∃ s sec, Spec.Mention ops s sec n ∧ s.st_shndx = 0 ∧ (s.st_info / 16 = 1 ∨ s.st_info / 16 = 2)
  undefined : ∀ s sec, Spec.Mention ops s sec n → s.st_info / 16 = 1 → s.st_shndx = 0
  absent : ¬ Spec.ImportedIn ops n

/-- the calls are those for complete files: the objects of the command line and some members of archives -/
def WholeFiles (env : Env) (l : Linker) (q : List Call) : Prop :=
  ∃ members, sectionCalls q = (objectsOf env l ++ members).flatMap Loaded.sectionKeys ∧
    otherCalls q = (objectsOf env l ++ members).flatMap Loaded.otherKeys

/-- when the files handed over with the calls `q` were complete, `n` had no definition -/
def NeededIn (env : Env) (l : Linker) (q : List Call) (n : Name) : Prop := Unresolved (opsOf q) n ∧ WholeFiles env l q

/-- The calls `log` of a link: `loaded` are the object files that take part, the objects of the
command line first. Every section, symbol and relocation of these files is handed over exactly once
and in order, and nothing else is. -/
structure Calls (env : Env) (l : Linker) (Needed : List Call → Name → Prop) (loaded : List Loaded) (log : List Call) :
    Prop where
  just : ∀ a c b, log = a ++ c :: b → Justified env l Needed loaded a c
  objects : ∃ members, loaded = objectsOf env l ++ members ∧ ∀ x ∈ members, FromArchive env l Needed log x
  readable : ∀ p ∈ l.objects, ∃ d e, env.read p = some d ∧ env.parseElf d = some e
  sections : sectionCalls log = loaded.flatMap Loaded.sectionKeys
  others : otherCalls log = loaded.flatMap Loaded.otherKeys
  needed : ∀ a p j op b, log = a ++ ⟨.library p, .dynsym j, op⟩ :: b →
    ∃ f b', b = ⟨.library p, .needed j, .needed f⟩ :: b' ∧ p.file = some f
  once : (sectionCalls log).Nodup ∧ (otherCalls log).Nodup

/-- the object files that can take part in the link: those of the command line and the members of the archives -/
inductive IsInput (env : Env) (l : Linker) : ElfFile → Prop
  | object {p : Path} {d : Bytes} {e : ElfFile} (hp : p ∈ l.objects) (hd : env.read p = some d) (he : env.parseElf d = some e)
      (ho : e.isObjectFile = true) : IsInput env l e
  | member {p : Path} {data : Bytes} {ar : ArFile} {m d : Bytes} {e : ElfFile} (hp : p ∈ l.archives) (hd : env.read p = some data)
      (ha : env.parseAr data = some ar) (hm : ar.get m = some d) (he : env.parseElf d = some e) (ho : e.isObjectFile = true) : IsInput env l e

/-- a shared library given to the linker has a dynamic symbol `s` named `n` -/
def LibraryHas (env : Env) (l : Linker) (p : Path) (s : Sym) (n : Name) : Prop :=
  p ∈ l.options.sharedLibs.map (·.1) ∧ ∃ data e, env.read p = some data ∧ env.parseElf data = some e ∧ s ∈ e.dynsyms ∧
    e.dynName s.st_name = some n

/-- the section `sh` is copied to the output under the name `n` -/
def ElfFile.Copies (e : ElfFile) (sh : SectionHeader) (n : Name) : Prop :=
  sh ∈ e.sectionHeaders ∧ sh.sh_type ∉ auxiliaryTypes ∧ e.secName sh.sh_name = some n

/-- Well-formed inputs: names contain no NUL byte; no section has the name of a section the linker makes itself, or is writable without being
allocated; the first section has no name; sections without a name are empty; sections of one name are all `SHT_NOBITS` or none is; global and weak undefined symbols have names;
the dynamic symbols of libraries are not section symbols. -/
structure CleanFiles (env : Env) (l : Linker) : Prop where
  names : ∀ e sh n, IsInput env l e → e.Copies sh n → (0 : UInt8) ∉ n ∧ n ∉ reservedNames ∧ sh.sh_flags ≠ 1
  first : ∀ e sh, IsInput env l e → e.sectionHeaders[0]? = some sh → e.secName sh.sh_name = some []
  unnamed : ∀ e sh, IsInput env l e → e.Copies sh [] → sh.sh_size = 0
  nobits : ∀ e sh e' sh' n, IsInput env l e → e.Copies sh n → IsInput env l e' → e'.Copies sh' n → (sh.sh_type = 8 ↔ sh'.sh_type = 8)
  symbols : ∀ e s n, IsInput env l e → s ∈ e.syms → e.symName s.st_name = some n → (0 : UInt8) ∉ n ∧
    (n = [] → s.st_shndx = 0 → s.st_info / 16 ≠ 1 ∧ s.st_info / 16 ≠ 2)
  dynsyms : ∀ p s n, LibraryHas env l p s n → (0 : UInt8) ∉ n ∧ s.st_info % 16 ≠ 3

/-- a symbol `s` named `n` of one of the files; section symbols have no name -/
def MentionedIn (loaded : List Loaded) (s : Sym) (n : Name) : Prop :=
  ∃ x ∈ loaded, s ∈ x.elf.syms ∧ x.elf.symName s.st_name = some n ∧ s.st_info % 16 ≠ 3

/-- no archive given to the linker lists the name in its index -/
def NotInArchives (env : Env) (l : Linker) (n : Name) : Prop :=
  ∀ p ∈ l.archives, ∀ data ar, env.read p = some data → env.parseAr data = some ar → ar.memberOfSymbol n = none

end Dld
