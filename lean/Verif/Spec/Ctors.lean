import Verif.Spec.Perms
import Verif.Spec.Runtime
/-! # Specification: functions that run at the start and at the end of the program -/
namespace Dld
open Spec

/-- the arrays of functions that the loader calls: the tags of address and size and the type of the sections. `DT_INIT_ARRAY`, `DT_INIT_ARRAYSZ`,
`SHT_INIT_ARRAY`; `DT_FINI_ARRAY`, `DT_FINI_ARRAYSZ`, `SHT_FINI_ARRAY` -/
def functionArrays : List (Nat × Nat × Nat) := [(25, 27, 14), (26, 28, 15)]

/-- the loader finds one array with the tags `ta` and `ts`: `n` bytes at `a` -/
def ArrayAt (file : Bytes) (ta ts a n : Nat) : Prop :=
  ∃ es, dynTable file = some es ∧ es.filter (fun e => e.1 == ta) = [(ta, a)] ∧ es.filter (fun e => e.1 == ts) = [(ts, n)]

/-- in the files the sections of the type `ty` are those of the name `m` -/
def OneArray (loaded : List Loaded) (ty : Nat) (m : Name) : Prop :=
  ∀ y ∈ loaded, ∀ t ∈ y.elf.copied, t.1.sh_type = ty ↔ y.elf.secName t.1.sh_name = some m

end Dld
