import Verif.Spec.File
import Verif.Spec.Run
/-! # Specification: the dynamic section -/
namespace Dld.Spec

/-- the tags that describe a section: the tag, the name of the section, and the value it has -/
def sectionTags : List (Nat × Name × (EShdr → Nat)) :=
  [ (2, b!".rela.plt", (·.size)), (3, b!".got.plt", (·.addr)), (4, b!".hash", (·.addr)), (5, b!".dynstr", (·.addr)),
    (6, b!".dynsym", (·.addr)), (7, b!".rela.dyn", (·.addr)), (8, b!".rela.dyn", (·.size)), (9, b!".rela.dyn", (·.entsize)),
    (10, b!".dynstr", (·.size)), (11, b!".dynsym", (·.entsize)), (12, b!".init", (·.addr)), (13, b!".fini", (·.addr)),
    (20, b!".rela.plt", fun _ => 7), (23, b!".rela.plt", (·.addr)), (0x6ffffef5, b!".gnu.hash", (·.addr)) ]

/-- the strings the `DT_NEEDED` (1) entries of a dynamic section refer to, in order -/
def neededNames (dynamic dynstr : List UInt8) : List (Option (List UInt8)) :=
  ((dynsOf dynamic).filter fun e => e.1 == 1).map fun e => cstrAt dynstr e.2

/-- the libraries reported as needed, the first time each; names that are in the dynamic string table
(`seen`) for another reason are left out -/
def newlyNeeded (seen : List Name) : List Op → List Name
  | [] => []
  | .dynsym _ n _ _ :: ops => newlyNeeded (n :: seen) ops
  | .needed n :: ops => if n ∈ seen then newlyNeeded seen ops else n :: newlyNeeded (n :: seen) ops
  | _ :: ops => newlyNeeded seen ops

/-- the names of the sections every output file has; which hash tables there are depends on the hash style -/
def ownNames (sysv gnu : Bool) : List Name :=
  [b!"", b!".shstrtab", b!".strtab", b!".dynstr", b!".interp", b!".got", b!".got.plt", b!".plt", b!".symtab", b!".dynsym",
   b!".dynamic", b!".rela.dyn", b!".rela.plt", b!".copyrel"] ++ (if sysv then [b!".hash"] else []) ++ (if gnu then [b!".gnu.hash"] else [])

/-- the sections that refer to another section in `sh_link`, and the section they refer to -/
def linkTable : List (Name × Name) :=
  [(b!".symtab", b!".strtab"), (b!".dynsym", b!".dynstr"), (b!".dynamic", b!".dynstr"), (b!".rela.dyn", b!".dynsym"),
   (b!".rela.plt", b!".dynsym"), (b!".hash", b!".dynsym"), (b!".gnu.hash", b!".dynsym")]

end Dld.Spec
namespace Dld

/-- the System V hash table is asked for -/
def HashStyle.wantsSysv : HashStyle → Bool | .gnu => false | _ => true
/-- the GNU hash table is asked for -/
def HashStyle.wantsGnu : HashStyle → Bool | .sysv => false | _ => true

/-- No pushed section has one of the types of the dynamic linking tables: string tables and dynamic
symbol tables are skipped by the driver (`src/lib.rs` 26-27), and object files have no hash tables. -/
def PlainTypes (ops : List Op) : Prop := ∀ n sh d r, Op.push n sh d r ∈ ops →
  sh.sh_type ≠ SHT_STRTAB ∧ sh.sh_type ≠ SHT_DYNSYM ∧ sh.sh_type ≠ SHT_HASH ∧ sh.sh_type ≠ SHT_GNU_HASH

end Dld
