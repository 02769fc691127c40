import Verif.Lemmas.History
import Verif.Lemmas.Except
import Verif.Spec.Run
/-! # Concrete links, used to show that the hypotheses of the theorems can be met -/
namespace Dld
open Writer

/-- run everything: the writer before and after `compute_sections`, the file, the sections -/
def runAll (opts : Options) (ops : List Op) (sched : Sched) : M (Writer × Writer × Bytes × List Section) := do
  let w ← runOps opts ops
  let w' ← w.computeSections sched
  let (f, s) ← w'.writeToDisk sched
  .ok (w, w', f, s)

theorem Run.of_runAll {opts : Options} {ops : List Op} {sched : Sched} {r : Writer × Writer × Bytes × List Section}
    (hv : sched.Valid) (h : runAll opts ops sched = .ok r) : Run opts ops sched r.1 r.2.1 r.2.2.1 r.2.2.2 := by
  simp only [runAll, bind_ok, Prod.exists] at h
  obtain ⟨w, h1, w', h2, f, s, h3, h4⟩ := h
  cases h4
  exact ⟨Hist.of_run h1, hv, h2, h3⟩

theorem Sched.id_valid : Sched.id.Valid := ⟨fun _ => .rfl, fun _ => .rfl, fun _ => .rfl, fun _ => .rfl⟩

/-- a schedule that reverses every order -/
def Sched.rev : Sched :=
  { symIter := List.reverse, dynIter := List.reverse, gotPltIter := List.reverse, secOrder := List.reverse }

theorem Sched.rev_valid : Sched.rev.Valid :=
  ⟨List.reverse_perm, List.reverse_perm, List.reverse_perm, List.reverse_perm⟩

/-- a link that succeeds and satisfies a decidable condition -/
def runs (opts : Options) (ops : List Op) (sched : Sched)
    (P : Writer → Writer → Bytes → List Section → Bool) : Bool :=
  match runAll opts ops sched with
  | .ok (w, w', f, s) => P w w' f s
  | .error _ => false

theorem Run.of_runs {opts : Options} {ops : List Op} {sched : Sched} {P : Writer → Writer → Bytes → List Section → Bool}
    (hv : sched.Valid) (h : runs opts ops sched P = true) :
    ∃ w w' f s, Run opts ops sched w w' f s ∧ P w w' f s = true := by
  unfold runs at h
  split at h
  · next h1 => exact ⟨_, _, _, _, Run.of_runAll hv h1, h⟩
  · cases h

/-- a condition on every pushed section -/
def pushesAll (P : Name → SectionHeader → Option Bytes → Bool) (ops : List Op) : Bool :=
  ops.all fun
    | .push n sh d _ => P n sh d
    | _ => true

theorem pushesAll_iff {P : Name → SectionHeader → Option Bytes → Bool} {ops : List Op} (h : pushesAll P ops = true) :
    ∀ n sh d r, Op.push n sh d r ∈ ops → P n sh d = true := by
  intro n sh d r hm
  exact List.all_eq_true.1 h _ hm

theorem FlagsOk.of_all {ops : List Op} (h : pushesAll (fun _ sh _ => sh.sh_flags != SHF_WRITE) ops = true) : FlagsOk ops :=
  fun n sh d r hm => by simpa using pushesAll_iff h n sh d r hm

theorem NoDynamicPush.of_all {ops : List Op} (h : pushesAll (fun _ sh _ => sh.sh_type != SHT_DYNAMIC) ops = true) :
    NoDynamicPush ops :=
  fun n sh d r hm => by simpa using pushesAll_iff h n sh d r hm

/-- the header of a pushed section -/
def demoSh (type flags size align : Nat) : SectionHeader :=
  { sh_type := type, sh_flags := flags, sh_size := size, sh_addralign := align }

/-- a global symbol -/
def demoSym (type shndx value size : Nat) : Sym :=
  { st_info := STB_GLOBAL * 16 + type, st_shndx := shndx, st_value := value, st_size := size }

/-- an object file -/
def demoPath : Path := ⟨b!"a.o", some b!"a.o"⟩

/-- Two objects and a shared library: code calling a library function through the PLT, reading a
library variable, data, zero-fill data and a comment. -/
def demoOps : List Op :=
  [ .push [] {} (some []) ⟨0, 0⟩,
    .push b!".text" (demoSh SHT_PROGBITS 6 16 16) (some (List.replicate 16 0x90)) ⟨16, 0⟩,
    .push b!".data" (demoSh SHT_PROGBITS 3 8 8) (some [1, 2, 3, 4, 5, 6, 7, 8]) ⟨17, 0⟩,
    .push b!".comment" (demoSh SHT_PROGBITS 0x30 4 1) (some [0x47, 0x43, 0x43, 0]) ⟨18, 0⟩,
    .sym (demoSym STT_FUNC 1 4 12) (some ⟨16, 0⟩) b!"_start" demoPath (.named 1),
    .sym (demoSym 0 0 0 0) (some ⟨0, 0⟩) b!"puts" demoPath (.named 8),
    .sym (demoSym 0 0 0 0) (some ⟨0, 0⟩) b!"environ" demoPath (.named 13),
    .reloc { r_offset := 5, r_info := 8 * 2 ^ 32 + R_X86_64_PLT32, r_addend := -4 } (.named 8) ⟨16, 0⟩ demoPath,
    .reloc { r_offset := 0, r_info := 8 * 2 ^ 32 + R_X86_64_64, r_addend := 0 } (.named 1) ⟨17, 0⟩ demoPath,
    .push b!".text" (demoSh SHT_PROGBITS 6 8 8) (some [0x48, 0x8b, 0x05, 0, 0, 0, 0, 0xcc]) ⟨16, 1⟩,
    .push b!".data" (demoSh SHT_PROGBITS 3 4 4) (some [9, 9, 9, 9]) ⟨17, 1⟩,
    .push b!".bss" (demoSh SHT_NOBITS 3 16 4) none ⟨19, 0⟩,
    .sym (demoSym STT_OBJECT 2 0 4) (some ⟨17, 1⟩) b!"counter" demoPath (.named 21),
    .reloc { r_offset := 3, r_info := 8 * 2 ^ 32 + R_X86_64_REX_GOTPCRELX, r_addend := -4 } (.named 21) ⟨16, 1⟩ demoPath,
    .dynsym (demoSym STT_FUNC 12 0x1234 10) b!"puts" demoPath (.named 22),
    .dynsym (demoSym STT_OBJECT 13 0x5678 8) b!"environ" demoPath (.named 27),
    .needed b!"libc.so.6" ]

end Dld
