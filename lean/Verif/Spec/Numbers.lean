import Verif.Spec.Progress
import Verif.Props.Serialize
/-! # Numbers of the input -/
namespace Dld
namespace Spec

/-- The numbers handed to the writer are numbers read from fields of ELF files: every one fits the
field it comes from. -/
structure FieldsFit (ops : List Op) : Prop where
  sections : ∀ n sh d r, Op.push n sh d r ∈ ops → sh.Fits
  symbols : ∀ s sec n path r, Op.sym s sec n path r ∈ ops → s.Fits
  dynamic : ∀ s n path r, Op.dynsym s n path r ∈ ops → s.Fits

end Spec
end Dld
