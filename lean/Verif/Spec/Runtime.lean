import Verif.Spec.Loader
import Verif.Spec.Got
/-! # Specification: starting a process

What the kernel and the dynamic loader do with an executable before its first instruction, written from the ELF gABI and the x86-64
psABI. Nothing here looks at the section headers: the loader knows the program headers and the memory. -/
namespace Dld.Spec

/-- the memory of a process: the byte at an address, if there is one -/
abbrev Mem := Nat → Option UInt8

/-- `n` bytes at `a`, if all of them are there -/
def readMem (m : Mem) (a n : Nat) : Option (List UInt8) := (List.range n).mapM fun i => m (a + i)

/-- the number in the 8 bytes at `a` -/
def wordAt (m : Mem) (a : Nat) : Option Nat := (readMem m a 8).map fromLe

/-- the address can be written: it belongs to a segment with `PF_W` (bit 1); what the last page of a segment has more is not counted -/
def writableAt (file : List UInt8) (a : Nat) : Bool := (segmentAt file a).any fun p => p.flags.testBit 1

/-- write bytes; fails if one of the addresses cannot be written -/
def writeMem (file : List UInt8) (m : Mem) (a : Nat) (bs : List UInt8) : Option Mem :=
  if (List.range bs.length).all fun i => writableAt file (a + i) then some fun x => if a ≤ x ∧ x < a + bs.length then bs[x - a]? else m x
  else none

/-- a number in 8 bytes -/
def le64 (n : Nat) : List UInt8 := (List.range 8).map fun i => UInt8.ofNat (n / 256 ^ i)

/-- the entries of the dynamic table before `DT_NULL`: `PT_DYNAMIC` (2) tells where it is -/
def dynTable (file : List UInt8) : Option (List (Nat × Nat)) := do
  let p ← (phdrsOf file 2).head?
  let img ← readMem (memAt file) p.vaddr p.memsz
  some ((dynsOf img).takeWhile fun e => e.1 != 0)

/-- the value of a tag -/
def dynTag (file : List UInt8) (t : Nat) : Option Nat := do
  let d ← dynTable file
  let e ← d.find? fun e => e.1 == t
  some e.2

/-- a relocation table: the tags with its address and size -/
def loadedRelas (file : List UInt8) (addr size : Nat) : Option (List ERela) := do
  let a ← dynTag file addr
  let n ← dynTag file size
  let img ← readMem (memAt file) a n
  some (relasOf img)

/-- entry `k` of the dynamic symbol table and its name: `DT_SYMTAB` (6), `DT_STRTAB` (5), `DT_STRSZ` (10) -/
def loadedSym (file : List UInt8) (k : Nat) : Option (ESym × Name) := do
  let a ← dynTag file 6
  let img ← readMem (memAt file) (a + 24 * k) 24
  let strs ← dynTag file 5
  let n ← dynTag file 10
  let names ← readMem (memAt file) strs n
  let s := decodeSym img 0
  let name ← cstrAt names s.name
  some (s, name)

/-- the libraries of the process: the addresses of what they define, and what is there when they are loaded -/
structure Libs where
  addr : Name → Option Nat
  image : Name → List UInt8
  small : ∀ n a, addr n = some a → a < 2 ^ 64

/-- the address of entry `k` of the dynamic symbol table: its value if the executable defines it, otherwise where a library has it -/
def boundTo (file : List UInt8) (libs : Libs) (k : Nat) : Option Nat := do
  let (s, n) ← loadedSym file k
  if s.shndx ≠ 0 then some s.value else libs.addr n

/-- One dynamic relocation: `GLOB_DAT` (6) and `JUMP_SLOT` (7) store an address, `COPY` (5) copies as many bytes of a library as the symbol in the
executable is long. -/
def relocateMem (file : List UInt8) (libs : Libs) (m : Mem) (r : ERela) : Option Mem :=
  if r.type = 6 ∨ r.type = 7 then do
    let a ← boundTo file libs r.sym
    writeMem file m r.offset (le64 a)
  else if r.type = 5 then do
    let (s, n) ← loadedSym file r.sym
    writeMem file m r.offset ((libs.image n).take s.size)
  else none

/-- The memory when the program starts, all symbols being bound before (`LD_BIND_NOW`): `DT_RELA` (7), `DT_RELASZ` (8), `DT_JMPREL` (23), `DT_PLTRELSZ` (2).
Nothing if the loader would crash or give up. -/
def started (file : List UInt8) (libs : Libs) : Option Mem := do
  let rels ← loadedRelas file 7 8
  let plts ← loadedRelas file 23 2
  (rels ++ plts).foldlM (relocateMem file libs) (memAt file)

/-- the instruction at an address, decoded from at most 15 bytes of memory -/
def instrAt (m : Mem) (a : Nat) : Option Instr :=
  (decodeInstr (((List.range 15).map fun i => m (a + i)).takeWhile Option.isSome |>.map fun b => b.getD 0) 0 a).map (·.1)

/-- the address of the memory that an instruction reads -/
def Instr.operand : Instr → Option Int
  | .load _ ea | .callMem ea | .jmpMem ea => some ea
  | _ => none

/-- the address that a direct call or jump leads to -/
def Instr.target : Instr → Option Int
  | .call t | .jmp t => some t
  | _ => none

/-- where a jump leads -/
inductive JumpsTo (m : Mem) : Nat → Nat → Prop
  | direct {a t : Nat} : instrAt m a = some (.jmp t) → JumpsTo m a t
  | through {a ea t : Nat} : instrAt m a = some (.jmpMem ea) → wordAt m ea = some t → JumpsTo m a t

/-- In every segment the zero-fill sections, other than `.copyrel`, stand behind the sections with contents. -/
def ZeroFillLast (file : List UInt8) : Prop :=
  ∀ (i j : Nat) (s t : EShdr), i < j → (shdrs file)[i]? = some s → (shdrs file)[j]? = some t → s.flags = t.flags → nameOf file s ≠ some b!".copyrel" →
    t.type ≠ 8 → s.type ≠ 8

/-- no `COPY` relocation writes into the section -/
def ClearOfCopies (file : List UInt8) (e : EShdr) : Prop :=
  ∀ r ∈ relasOf (bodyNamed file b!".rela.dyn"), r.type = 5 → ∀ y, (symsOf (bodyNamed file b!".dynsym"))[r.sym]? = some y →
    r.offset + y.size ≤ e.addr ∨ e.addr + e.size ≤ r.offset

/-- the dynamic loader finds the relocations and the dynamic symbols that the sections of the file hold -/
structure LoaderTables (file : List UInt8) : Prop where
  rela : loadedRelas file 7 8 = some (relasOf (bodyNamed file b!".rela.dyn"))
  plt : loadedRelas file 23 2 = some (relasOf (bodyNamed file b!".rela.plt"))
  sym : ∀ k y n, (symsOf (bodyNamed file b!".dynsym"))[k]? = some y → dynName file k = some n → loadedSym file k = some (y, n)

end Dld.Spec
