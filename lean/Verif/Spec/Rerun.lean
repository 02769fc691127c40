import Verif.Spec.Modes
/-! # Specification: two states of the file system before a link -/
namespace Dld

/-- The file systems differ at most in the contents and the permissions of the file `out`, which the user may write to and owns in both, if it is there. -/
structure SameBut (out : Path) (d d' : Disk) : Prop where
  files : ∀ q, q ≠ out → d'.files q = d.files q
  writable : d.writable out = true ∧ d'.writable out = true
  own : d.Own out ∧ d'.Own out

/-- The outcomes are the same: the same files with the same contents, or the same error, or both a crash. -/
def SameResult : Outcome → Outcome → Prop
  | .ok d, .ok d' => d'.files = d.files
  | .err p k d, .err p' k' d' => p' = p ∧ k' = k ∧ d'.files = d.files
  | .panic, .panic => True
  | _, _ => False

end Dld
