import Verif.Spec.OneDef
import Verif.Spec.Sound
import Verif.Spec.Values
/-! # Complete programs

What a user has to provide for a link to succeed: files that can be read, and for every name that is needed one definition. -/
namespace Dld
open Spec

/-- The files are there and can be parsed, sections and symbols have their names in the string tables, and no relocation is of a kind the psABI
does not allow. -/
structure ReadableFiles (env : Env) (l : Linker) : Prop where
  objects : ∀ p ∈ l.objects, ∃ d e, env.read p = some d ∧ env.parseElf d = some e
  libraries : ∀ p ∈ l.options.sharedLibs.map (·.1), ∃ d e, env.read p = some d ∧ env.parseElf d = some e ∧
    ∀ s ∈ e.dynsyms, (e.dynName s.st_name).isSome
  archives : ∀ p ∈ l.archives, ∃ d ar, env.read p = some d ∧ env.parseAr d = some ar ∧
    ∀ n m b, ar.memberOfSymbol n = some m → ar.get m = some b → (env.parseElf b).isSome
  sections : ∀ p d e sh, InputAt env l p d e → sh ∈ e.sectionHeaders → sh.sh_type ∉ auxiliaryTypes → (e.secName sh.sh_name).isSome
  symbols : ∀ p d e s, InputAt env l p d e → s ∈ e.syms → (e.symName s.st_name).isSome
  relocs : ∀ p d e k pos j rel, InputAt env l p d e → (k, pos, j, rel) ∈ e.relocs → rel.r_type % 2 ^ 32 ∉ nonAbiTypes

/-- a name that some file needs: it mentions the name as a global or weak symbol without defining it -/
def Needs (env : Env) (l : Linker) (n : Name) : Prop :=
  ∃ s, MentionedIn (objectsOf env l) s n ∧ s.st_shndx = 0 ∧ (s.st_info / 16 = 1 ∨ s.st_info / 16 = 2)

/-- one of the object files defines the name globally -/
def DefinedGlobally (env : Env) (l : Linker) (n : Name) : Prop :=
  ∃ s, MentionedIn (objectsOf env l) s n ∧ s.st_shndx ≠ 0 ∧ s.st_info / 16 = 1

/-- one of the object files defines the name weakly -/
def DefinedWeakly (env : Env) (l : Linker) (n : Name) : Prop :=
  ∃ s, MentionedIn (objectsOf env l) s n ∧ s.st_shndx ≠ 0 ∧ s.st_info / 16 = 2

/-- one of the object files has the name in one of its sections, which is copied to the output; the binding does not matter -/
def DefinedInSection (env : Env) (l : Linker) (n : Name) : Prop :=
  ∃ x ∈ objectsOf env l, ∃ s ∈ x.elf.syms, x.elf.symName s.st_name = some n ∧ s.st_info % 16 ≠ 3 ∧ s.st_shndx ≠ 0xfff1 ∧
    ∃ sh m, x.elf.sectionHeaders[s.st_shndx]? = some sh ∧ sh.sh_type ∉ auxiliaryTypes ∧ x.elf.secName sh.sh_name = some m ∧ m ≠ []

/-- the name is a bound of the array of initialisers or of finalisers, and one of the object files has such an array, which is copied to the output -/
def ArrayBound (env : Env) (l : Linker) (n : Name) : Prop :=
  ∃ x ∈ objectsOf env l, ∃ (i : Nat) (sh : SectionHeader) (m S E : Name), x.elf.sectionHeaders[i]? = some sh ∧ sh.sh_type ∉ auxiliaryTypes ∧
    x.elf.secName sh.sh_name = some m ∧ (m, S, E) ∈ arrayBounds ∧ (n = S ∨ n = E)

/-- the sections of the object files give the name a value -/
def InSection (env : Env) (l : Linker) (n : Name) : Prop := DefinedInSection env l n ∨ ArrayBound env l n

/-- a library has the name -/
def InLibrary (env : Env) (l : Linker) (n : Name) : Prop := ∃ p s, LibraryHas env l p s n

/-- No file is given twice, and a name that has a global definition has no second definition: not even a weak or local one. -/
structure DefinedOnce (env : Env) (l : Linker) : Prop where
  files : l.objects.Nodup
  names : ∀ n p d j s p' d' j' s', InputSym env l p d j s n → s.st_info / 16 = 1 → s.st_shndx ≠ 0 → InputSym env l p' d' j' s' n → s'.st_shndx ≠ 0 →
    p' = p ∧ d' = d ∧ j' = j

/-- no name has two global definitions -/
structure GlobalOnce (env : Env) (l : Linker) : Prop where
  files : l.objects.Nodup
  names : ∀ n p d j s p' d' j' s', InputSym env l p d j s n → s.st_info / 16 = 1 → s.st_shndx ≠ 0 → InputSym env l p' d' j' s' n →
    s'.st_info / 16 = 1 → s'.st_shndx ≠ 0 → p' = p ∧ d' = d ∧ j' = j

/-- symbols are local, global or weak, and a name that a file defines is defined globally or in a section -/
def PlainDefinitions (env : Env) (l : Linker) : Prop :=
  ∀ n s, MentionedIn (objectsOf env l) s n → s.st_info / 16 ≤ 2 ∧ (s.st_shndx ≠ 0 → s.st_info / 16 = 1 ∨ DefinedInSection env l n)

/-- the same objects in another order, and nothing else changed -/
structure Reordered (l l' : Linker) : Prop where
  objects : l'.objects.Perm l.objects
  rest : l' = { l with objects := l'.objects }

end Dld
