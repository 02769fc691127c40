import Verif.Spec.Contents
/-! # Specification: the values of symbols -/
namespace Dld.Spec

/-- the entries of a name in the symbol table `.symtab` of the file -/
def symbolsNamed (file : List UInt8) (n : Name) : List ESym :=
  (symsOf (bodyNamed file b!".symtab")).filter fun s => cstrAt (bodyNamed file b!".strtab") s.name == some n

/-- where a push of `m` after the calls `a` belongs in the output section `m`: after everything pushed before -/
def offsetOf (m : Name) (a : List Op) : Nat := ((pushesOf m a).map (·.1.sh_size)).sum

/-- strength of a binding: local < weak < global -/
def bindRank (s : Sym) : Nat := if s.st_info / 16 = 1 then 2 else if s.st_info / 16 = 2 then 1 else 0

/-- `s` mentions the name `n` in an object file, attached to the section `sec` -/
def Mention (ops : List Op) (s : Sym) (sec : Option SectionRef) (n : Name) : Prop :=
  (∃ path r, Op.sym s sec n path r ∈ ops) ∧ s.st_info % 16 ≠ 3

/-- the symbol is attached to a section of an object file: it is not absolute, and the section is not the null section -/
def Attached (ops : List Op) (s : Sym) (sec : Option SectionRef) (sr : SectionRef) : Prop :=
  sec = some sr ∧ s.st_shndx ≠ 0xfff1 ∧ ∀ sh d, Op.push [] sh d sr ∉ ops

/-- the symbols the linker itself gives a value -/
def linkerSymbols : List Name :=
  [b!"_GLOBAL_OFFSET_TABLE_", b!"__init_array_start", b!"__init_array_end", b!"__fini_array_start", b!"__fini_array_end"]

/-- the arrays of functions, with the symbols for their start and their end -/
def arrayBounds : List (Name × Name × Name) :=
  [(b!".init_array", b!"__init_array_start", b!"__init_array_end"), (b!".fini_array", b!"__fini_array_start", b!"__fini_array_end")]

/-- The definition `s` of `n` in the section `sr` decides what `n` means, as far as the linker's rules go: it comes after weaker mentions only
and before mentions that are not stronger, and `n` is attached to no other section. -/
structure Decides (a : List Op) (s : Sym) (sr : SectionRef) (n : Name) (b : List Op) : Prop where
  named : s.st_info % 16 ≠ 3
  defined : s.st_shndx ≠ 0
  absolute : s.st_shndx ≠ 0xfff1
  binds : s.st_info / 16 ≤ 2
  earlier : ∀ s' sec, Mention a s' sec n → s'.st_info / 16 ≤ 2 ∧ bindRank s' < bindRank s
  later : ∀ s' sec, Mention b s' sec n → s'.st_info / 16 ≤ 2 ∧ bindRank s' ≤ bindRank s
  only : ∀ s' sec sr', Mention (a ++ b) s' sec n → Attached (a ++ b) s' sec sr' → sr' = sr

end Dld.Spec
