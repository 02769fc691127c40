import Verif.Model.Text
/-! # What the names in a readable error message look like -/
namespace Dld.Spec

/-- printable ASCII characters -/
def Printable (s : Bytes) : Prop := ∀ c ∈ s, 32 ≤ c ∧ c < 127

/-- names without spaces and commas, like those of C and (mangled) C++ -/
def PlainName (s : Bytes) : Prop := Printable s ∧ (∀ c ∈ s, c ≠ 32 ∧ c ≠ 44)

/-- paths without backquotes -/
def PlainPath (s : Bytes) : Prop := Printable s ∧ ∀ c ∈ s, c ≠ 96

/-- the names and paths of a cause are plain; the cause is not one whose text comes from the operating system or the parser -/
def PlainCause : ErrKind → Prop
  | .input => False
  | .strtab => True
  | .alreadyDefined name reference => PlainName name ∧ PlainPath reference.full
  | .nonAbiReloc ty => ty ∈ [12, 13, 14, 15]
  | .undefined names => names ≠ [] ∧ ∀ n ∈ names, PlainName n

/-- Two causes say the same: they are equal up to what a path is besides its text. -/
def SameCause : ErrKind → ErrKind → Prop
  | .alreadyDefined n r, .alreadyDefined n' r' => n = n' ∧ r.full = r'.full
  | k, k' => k = k'

end Dld.Spec
