import Verif.Model.Disk
/-! # Files that can be run -/
namespace Dld

/-- the file is there and somebody may execute it -/
def Disk.Executable (d : Disk) (p : Path) : Prop := d.files p ≠ none ∧ d.mode p &&& 0o111 ≠ 0

/-- the permissions `rwxr-xr-x` -/
def programMode : Nat := 7 * 64 + 5 * 8 + 5

/-- the user may change the permissions of the file, or it is not there -/
def Disk.Own (d : Disk) (p : Path) : Prop := d.files p = none ∨ d.owned p = true

end Dld
