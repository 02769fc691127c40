import Verif.Spec.Complete
/-! # Complete programs with archives -/
namespace Dld
open Spec

/-- Every name in the index of an archive is the name of a global definition in the member the index gives for it, which is an object file; and the
members in the index have different contents. -/
structure GlobalIndexes (env : Env) (l : Linker) : Prop where
  global : ∀ p ∈ l.archives, ∀ data ar, env.read p = some data → env.parseAr data = some ar →
    ∀ n m d, ar.memberOfSymbol n = some m → ar.get m = some d → ∃ e, env.parseElf d = some e ∧ e.isObjectFile = true ∧
      ∃ s ∈ e.syms, e.symName s.st_name = some n ∧ s.st_info % 16 ≠ 3 ∧ s.st_shndx ≠ 0 ∧ s.st_info / 16 = 1
  distinct : ∀ p ∈ l.archives, ∀ data ar, env.read p = some data → env.parseAr data = some ar →
    ∀ n m n' m' d, ar.memberOfSymbol n = some m → ar.memberOfSymbol n' = some m' → ar.get m = some d → ar.get m' = some d → m = m'

/-- a name that an object or a member in the index of an archive needs: the file mentions the name as a global or weak symbol without defining it -/
def AnyNeeds (env : Env) (l : Linker) (n : Name) : Prop :=
  ∃ p d j s, InputSym env l p d j s n ∧ s.st_shndx = 0 ∧ (s.st_info / 16 = 1 ∨ s.st_info / 16 = 2)

/-- the index of an archive has the name -/
def InIndex (env : Env) (l : Linker) (n : Name) : Prop :=
  ∃ p ∈ l.archives, ∃ data ar m, env.read p = some data ∧ env.parseAr data = some ar ∧ ar.memberOfSymbol n = some m

/-- the members in the indexes of the archives, each once -/
def membersOf (env : Env) (l : Linker) : List Loaded :=
  l.archives.flatMap fun p => (((env.read p).bind env.parseAr).map fun ar => (ar.index.map (·.2)).eraseDups.filterMap fun m =>
    (ar.get m).bind fun d => (env.parseElf d).bind fun e => if e.isObjectFile then some ⟨.member p m 0, p, d, e⟩ else none).getD []

/-- all files that can take part in the link -/
def inputsOf (env : Env) (l : Linker) : List Loaded := objectsOf env l ++ membersOf env l

/-- The objects and the members of the archives are of moderate size: symbol values and addends are at most `V`, a name has at most `K` definitions, and
all files together are far from filling 2 GiB. -/
structure SmallInputs (env : Env) (l : Linker) (V K : Nat) : Prop where
  values : ∀ x ∈ inputsOf env l, ∀ s ∈ x.elf.syms, s.st_value ≤ V
  addends : ∀ x ∈ inputsOf env l, ∀ y ∈ x.elf.usedRelocs, -(V : Int) ≤ y.2.2.2.r_addend.getD 0 ∧ y.2.2.2.r_addend.getD 0 ≤ V
  definitions : 1 ≤ K ∧ ∀ n, ((inputsOf env l).map fun x => x.elf.definitions n).sum ≤ K
  small : 4 * (V + (K + 5) * (0x200000 + 1024 + baseCost l.options + ((inputsOf env l).map fun x => x.elf.cost).sum)) < 2 ^ 31

end Dld
