import Verif.Spec.CompleteAr
/-! # Specification: the archive members that a link can reach -/
namespace Dld
open Spec

/-- `e` leaves `n` undefined: it mentions the name as a global or weak symbol without defining it -/
def ElfFile.leaves (e : ElfFile) (n : Name) : Prop :=
  ∃ s ∈ e.syms, e.symName s.st_name = some n ∧ s.st_info % 16 ≠ 3 ∧ s.st_shndx = 0 ∧ (s.st_info / 16 = 1 ∨ s.st_info / 16 = 2)

/-- The files a link can reach: the objects of the command line, and the members of archives that the index gives for a name which a reached file leaves
undefined, no object of the command line defines globally and no library has. -/
inductive Reached (env : Env) (l : Linker) : ElfFile → Prop
  | object {p : Path} {d : Bytes} {e : ElfFile} (hp : p ∈ l.objects) (hd : env.read p = some d) (he : env.parseElf d = some e)
      (ho : e.isObjectFile = true) : Reached env l e
  | member {e e' : ElfFile} {n : Name} {p : Path} {data m d : Bytes} {ar : ArFile} (h : Reached env l e) (hu : e.leaves n) (hg : ¬ DefinedGlobally env l n)
      (hl : NotInLibs env l n) (hp : p ∈ l.archives) (hd : env.read p = some data) (ha : env.parseAr data = some ar) (hn : ar.memberOfSymbol n = some m)
      (hm : ar.get m = some d) (he : env.parseElf d = some e') (ho : e'.isObjectFile = true) : Reached env l e'

/-- the names the archives can be asked for -/
def Asked (env : Env) (l : Linker) (n : Name) : Prop :=
  (∃ e, Reached env l e ∧ e.leaves n) ∧ ¬ DefinedGlobally env l n ∧ NotInLibs env l n

/-- the names of all symbols of the files the link can reach take less than 4 GiB -/
def NamesReached (env : Env) (l : Linker) : Prop :=
  ∀ ns : List Name, ns.Nodup → (∀ n ∈ ns, n = [] ∨ ∃ e s, Reached env l e ∧ s ∈ e.syms ∧ e.symName s.st_name = some n) →
    (ns.map (·.length + 1)).sum < 2 ^ 32

/-- The two archives answer alike when asked for `n`: they have no member for it, or one of the same name and with the same contents. -/
def SameAnswer (ar ar' : ArFile) (n : Name) : Prop :=
  ar'.memberOfSymbol n = ar.memberOfSymbol n ∧ ∀ m, ar.memberOfSymbol n = some m → ar'.get m = ar.get m

/-- The two worlds have the same objects and libraries, and their archives answer alike when asked for one of the names in `A`. -/
structure SameAnswers (env env' : Env) (l : Linker) (A : Name → Prop) : Prop where
  parser : ∀ d, env'.parseElf d = env.parseElf d
  files : ∀ p, p ∈ l.objects ∨ p ∈ l.options.sharedLibs.map (·.1) → env'.read p = env.read p
  archives : ∀ p ∈ l.archives, ((env.read p).bind env.parseAr = none ∧ (env'.read p).bind env'.parseAr = none) ∨
    ∃ ar ar', (env.read p).bind env.parseAr = some ar ∧ (env'.read p).bind env'.parseAr = some ar' ∧ ∀ n, A n → SameAnswer ar ar' n

open Classical in
/-- the archive without the entries of its index for other names than those in `A` -/
noncomputable def ArFile.only (ar : ArFile) (A : Name → Prop) : ArFile := { ar with index := ar.index.filter fun e => decide (A e.1) }

/-- the world in which the indexes of the archives have no other names than those the link can ask for -/
noncomputable def reachedEnv (env : Env) (l : Linker) : Env :=
  { env with parseAr := fun d => (env.parseAr d).map (·.only (Asked env l)) }

end Dld
