import Verif.Spec.CompleteAr
import Verif.Spec.Complete
/-! # What a shared library offers -/
namespace Dld

/-- what a library offers under a name: the type and binding, the visibility and the size of its dynamic symbols of that name -/
def ElfFile.offers (e : ElfFile) (n : Name) : List (Nat × Nat × Nat) :=
  (e.dynsyms.filter fun s => e.dynName s.st_name == some n).map fun s => (s.st_info, s.st_other, s.st_size)

/-- every dynamic symbol has a name -/
def ElfFile.NamedDynsyms (e : ElfFile) : Prop := ∀ s ∈ e.dynsyms, (e.dynName s.st_name).isSome

namespace Linker

/-- The two worlds have the same objects and archives, and every library is the same in both or offers the same under the names in `A`. -/
structure SameOffers (env env' : Env) (l : Linker) (A : Name → Prop) : Prop where
  parser : ∀ d, env'.parseElf d = env.parseElf d
  parserAr : ∀ d, env'.parseAr d = env.parseAr d
  files : ∀ p, p ∈ l.objects ∨ p ∈ l.archives → env'.read p = env.read p
  libs : ∀ p ∈ l.options.sharedLibs.map (·.1), env'.read p = env.read p ∨
    ∃ d d' e e', env.read p = some d ∧ env'.read p = some d' ∧ env.parseElf d = some e ∧ env'.parseElf d' = some e' ∧
      e.NamedDynsyms ∧ e'.NamedDynsyms ∧ ∀ n, A n → e'.offers n = e.offers n

end Linker
end Dld
