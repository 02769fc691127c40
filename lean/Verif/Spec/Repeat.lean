import Verif.Spec.Process
/-! # Specification: two runs of one command line -/
namespace Dld.Cli

/-- the paths that are tried for the name `n`: `n` itself, and `n`, `libn.so` and `libn.a` in the directories -/
def Tried (dirs : List Bytes) (n p : Bytes) : Prop :=
  p = n ∨ ∃ d ∈ dirs, p = join d n ∨ p = join d (b!"lib" ++ n ++ b!".so") ∨ p = join d (b!"lib" ++ n ++ b!".a")

/-- the two file systems agree on the directories of the words and on the paths that are tried for their inputs -/
structure SameInputs (ws : List Word) (fs fs' : Fs) : Prop where
  dirs : ∀ v, (b!"-L" ++ v, none) ∈ ws → fs'.canon v = fs.canon v
  isFile : ∀ e ∈ inputsOf ws, ∀ p, Tried (dirsOf fs.canon ws) e.1 p → fs'.isFile p = fs.isFile p
  read : ∀ e ∈ inputsOf ws, ∀ p, Tried (dirsOf fs.canon ws) e.1 p → fs'.read p = fs.read p
  canon : ∀ e ∈ inputsOf ws, ∀ p, Tried (dirsOf fs.canon ws) e.1 p → fs'.canon p = fs.canon p
  real : ∀ e ∈ inputsOf ws, ∀ p, Tried (dirsOf fs.canon ws) e.1 p → ∀ q, fs.canon p = some q → fs'.read q = fs.read q

/-- The two runs end in the same way, with the same message and, if they write an executable to `out`, with the same one. -/
def SameExit (out : Bytes) : Option Exit → Option Exit → Prop
  | none, none => True
  | some .panic, some .panic => True
  | some (.success o files), some (.success o' files') => o' = o ∧ (o = .executable out → files' out = files out)
  | some (.failure m _), some (.failure m' _) => m' = m
  | _, _ => False

/-- The file system after a run has written `out`: the files have the contents the run left, and nothing else has changed. -/
structure After (fs : Fs) (out : Bytes) (files : Bytes → Option Bytes) (fs' : Fs) : Prop where
  read : ∀ p, fs'.read p = files p
  isFile : ∀ p, fs'.isFile p = if p = out then true else fs.isFile p
  canon : ∀ p, p ≠ out → fs'.canon p = fs.canon p

end Dld.Cli
