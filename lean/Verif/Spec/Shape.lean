import Verif.Model.Linker
/-! # Specification: links of files of the same shape -/
namespace Dld

/-- the chunk without its contents -/
def Chunk.blank (c : Chunk) : Chunk := { c with data := List.replicate c.data.length 0 }

/-- the section without its contents -/
def Section.blank (s : Section) : Section := { s with chunks := s.chunks.map Chunk.blank }

/-- The order the sort gives to equal sections does not depend on their contents (it compares headers only). -/
def Sched.Oblivious (s : Sched) : Prop :=
  ∀ l l' : List Section, l'.map Section.blank = l.map Section.blank → (s.secOrder l').map Section.blank = (s.secOrder l).map Section.blank

/-- `SameShape env env' data data'`: files of the same length with the same headers, symbols and relocations, whatever else they contain -/
def SameShape (env env' : Env) (data data' : Bytes) : Prop := data'.length = data.length ∧ env'.parseElf data' = env.parseElf data

/-- archives with the same index, whose members have the same shapes -/
def SameArchive (env env' : Env) (data data' : Bytes) : Prop :=
  (env.parseAr data = none ∧ env'.parseAr data' = none) ∨
  ∃ ar ar', env.parseAr data = some ar ∧ env'.parseAr data' = some ar' ∧ ar'.index = ar.index ∧
    ∀ m, (ar.get m = none ∧ ar'.get m = none) ∨ ∃ d d', ar.get m = some d ∧ ar'.get m = some d' ∧ SameShape env env' d d'

/-- the two worlds have, for each input of the link, files of the same shape -/
structure SameShapes (env env' : Env) (l : Linker) : Prop where
  objects : ∀ p ∈ l.objects, (env.read p = none ∧ env'.read p = none) ∨ ∃ d d', env.read p = some d ∧ env'.read p = some d' ∧ SameShape env env' d d'
  libs : ∀ p ∈ l.options.sharedLibs.map (·.1),
    (env.read p = none ∧ env'.read p = none) ∨ ∃ d d', env.read p = some d ∧ env'.read p = some d' ∧ env'.parseElf d' = env.parseElf d
  archives : ∀ p ∈ l.archives, (env.read p = none ∧ env'.read p = none) ∨ ∃ d d', env.read p = some d ∧ env'.read p = some d' ∧ SameArchive env env' d d'

/-- two links that end in the same way unless one of them crashes: with the same error, or with files related by `R` -/
inductive Kin {α β : Type} (R : α → β → Prop) : M α → M β → Prop where
  | ok {a b} : R a b → Kin R (.ok a) (.ok b)
  | err (e : Fail) : Kin R (.error e) (.error e)
  | left (y : M β) : Kin R (.error .panic) y
  | right (x : M α) : Kin R x (.error .panic)

end Dld
