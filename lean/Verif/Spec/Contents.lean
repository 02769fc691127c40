import Verif.Spec.Got
/-! # Specification: the contents of merged sections -/
namespace Dld.Spec

/-- where the data of a push of `n` after the calls `a` starts in the output section `n`: after the data of all earlier pushes of `n` -/
def startOf (n : Name) (a : List Op) : Nat := ((pushesOf n a).map fun p => (p.2.getD []).length).sum

/-- the number of bytes of instruction before its field a relocation may change -/
def patchBack (rel : Rela) : Nat := if relType rel = 41 then 2 else if relType rel = 42 then 3 else 0

/-- the size of the field of a relocation -/
def patchWidth (rel : Rela) : Nat := if relType rel = 0 then 0 else if relType rel = 1 then 8 else 4

/-- The relocation may change byte `i` of the section it belongs to: none for type 0, 8 bytes for R_X86_64_64, 4 bytes otherwise, with the
two or three bytes of instruction before them for the types that allow to rewrite the instruction. -/
def MayPatch (rel : Rela) (i : Nat) : Prop :=
  rel.r_offset - patchBack rel ≤ i ∧ i < rel.r_offset - patchBack rel + (patchBack rel + patchWidth rel)

instance (rel : Rela) (i : Nat) : Decidable (MayPatch rel i) := by unfold MayPatch; infer_instance

/-- the largest alignment of a list of pushes -/
def maxAlign (ps : List (SectionHeader × Option Bytes)) : Nat := (ps.map (·.1.sh_addralign)).foldl max 0

end Dld.Spec
