import Verif.Spec.Dynamic
/-! # Entries of the dynamic table for symbol versions and debuggers (gABI, LSB) -/
namespace Dld

/-- what the loader needs to choose the version of a symbol: `DT_VERSYM`, `DT_VERNEED`, `DT_VERNEEDNUM` -/
def versionTags : List Nat := [0x6ffffff0, 0x6ffffffe, 0x6fffffff]

/-- where the loader tells a debugger about the libraries of the process: `DT_DEBUG` -/
def debugTag : Nat := 21

/-- the sections with the versions of symbols -/
def versionSections : List Name := [b!".gnu.version", b!".gnu.version_r", b!".gnu.version_d"]

end Dld
