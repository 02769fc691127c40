import Verif.Spec.Blame
/-! # Specification: inputs that are missing or damaged -/
namespace Dld

/-- The input `p` of the link cannot be read, or it is no ELF file although it is an object or a library, or no archive although it is used as one. -/
inductive Damaged (env : Env) (l : Linker) : Path → Prop
  | missing {p : Path} (hp : p ∈ l.objects ∨ p ∈ l.options.sharedLibs.map (·.1) ∨ p ∈ l.archives) (h : env.read p = none) : Damaged env l p
  | object {p : Path} {d : Bytes} (hp : p ∈ l.objects) (hd : env.read p = some d) (he : env.parseElf d = none) : Damaged env l p
  | library {p : Path} {d : Bytes} (hp : p ∈ l.options.sharedLibs.map (·.1)) (hd : env.read p = some d) (he : env.parseElf d = none) : Damaged env l p
  | archive {p : Path} {d : Bytes} (hp : p ∈ l.archives) (hd : env.read p = some d) (he : env.parseAr d = none) : Damaged env l p

/-- the same link with the objects alone -/
def Linker.objectsAlone (l : Linker) : Linker := { l with options := { l.options with sharedLibs := [] }, archives := [] }

end Dld
