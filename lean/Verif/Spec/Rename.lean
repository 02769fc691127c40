import Verif.Model.Linker
/-! # Specification: the same link with its files at other places -/
namespace Dld

/-- the error with the paths in it renamed -/
def ErrKind.ren (f : Path → Path) : ErrKind → ErrKind
  | .alreadyDefined n p => .alreadyDefined n (f p)
  | k => k

/-- the failure with the paths in it renamed -/
def Fail.ren (f : Path → Path) : Fail → Fail
  | .panic => .panic
  | .err p k => .err (f p) (k.ren f)

/-- the outcome with the paths in it renamed: executables have none -/
def renOutcome (f : Path → Path) : Option (M Bytes) → Option (M Bytes)
  | none => none
  | some (.ok file) => some (.ok file)
  | some (.error e) => some (.error (e.ren f))

/-- the same link with its inputs and its output at other places -/
def Linker.ren (f : Path → Path) (l : Linker) : Linker :=
  { options := { l.options with output := f l.options.output, sharedLibs := l.options.sharedLibs.map fun e => (f e.1, e.2) }
    objects := l.objects.map f
    archives := l.archives.map f }

/-- `env'` has at `f p` what `env` has at `p`, for the inputs of the link; libraries keep the names of their files. The path without any characters, which
is no file's, stays as it is. -/
structure FilesMoved (f : Path → Path) (env env' : Env) (l : Linker) : Prop where
  read : ∀ p ∈ l.objects ++ l.archives ++ l.options.sharedLibs.map (·.1), env'.read (f p) = env.read p
  elf : env'.parseElf = env.parseElf
  ar : env'.parseAr = env.parseAr
  names : ∀ p ∈ l.options.sharedLibs.map (·.1), (f p).file = p.file
  empty : f ⟨[], none⟩ = ⟨[], none⟩

/-- The tables are visited in the same orders, the archives in the order of their new names. -/
structure SameOrders (f : Path → Path) (l : Linker) (sched sched' : LinkSched) : Prop where
  toSched : sched'.toSched = sched.toSched
  undefLib : sched'.undefLib = sched.undefLib
  undefAr : sched'.undefAr = sched.undefAr
  members : sched'.members = sched.members
  archives : sched'.archives (l.archives.map f) = (sched.archives l.archives).map f

end Dld
