import Verif.Spec.Files
import Verif.Spec.Loader
/-! # Specification: permissions of sections and segments

Section flags: writable is bit 0, allocated bit 1, executable bit 2, thread-local bit 10. Segment flags: executable is bit 0, writable bit 1,
readable bit 2. -/
namespace Dld
open Spec

/-- the flags agree on writable, allocated and executable -/
def SamePerms (f g : Nat) : Prop := f.testBit 0 = g.testBit 0 ∧ f.testBit 1 = g.testBit 1 ∧ f.testBit 2 = g.testBit 2

/-- at the address `a` there is memory that the program may read, and write and execute as a section with the flags `f` asks -/
def MappedFor (file : Bytes) (a f : Nat) : Prop :=
  ∃ p, segmentAt file a = some p ∧ p.flags.testBit 2 = true ∧ p.flags.testBit 1 = f.testBit 0 ∧ p.flags.testBit 0 = f.testBit 2

/-- all sections of the name `n` in the files have the permissions of the flags `f` -/
def AgreeOn (loaded : List Loaded) (n : Name) (f : Nat) : Prop := ∀ y ∈ loaded, ∀ t ∈ y.elf.named n, SamePerms t.1.sh_flags f

end Dld
