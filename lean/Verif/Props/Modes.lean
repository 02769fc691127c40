import Verif.Spec.Modes
import Verif.Props.Disk
/-! # The permissions of the output: C136 -/
namespace Dld

theorem Disk.create_mode (d : Disk) (p q : Path) : (d.create p).mode q = if q = p ∧ d.files p = none then d.created else d.mode q := by
  unfold Disk.create
  split
  · next e => rw [if_neg (by rw [e]; rintro ⟨_, ⟨⟩⟩)]; rfl
  · next e =>
    by_cases hq : q = p
    · rw [if_pos ⟨hq, e⟩]; exact if_pos hq
    · rw [if_neg fun h => hq h.1]; exact if_neg hq

theorem Disk.create_owned (d : Disk) (p : Path) : (d.create p).owned p = true ↔ d.Own p := by
  unfold Disk.create Disk.Own
  split
  · next e => rw [e]; simp [Disk.write]
  · next e => rw [e]; simp

namespace Linker
variable {parseElf : Bytes → Option ElfFile} {parseAr : Bytes → Option ArFile} {d d' : Disk} {l : Linker} {sched : LinkSched} {fuel : Nat}

/-- **C136, success.** After a successful link the output has the permissions `rwxr-xr-x`, whatever it had before, and those of all other files are as they were. -/
theorem C136_success (h : linkOn parseElf parseAr d l sched fuel = some (.ok d')) :
    d'.Executable l.options.output ∧ d'.mode l.options.output = programMode ∧ ∀ q, q ≠ l.options.output → d'.mode q = d.mode q := by
  unfold linkOn at h
  split at h
  · simp only [] at h
    split at h
    · cases h
    · split at h
      · cases h
        refine ⟨⟨by simp [Disk.chmod, Disk.write], by simp [Disk.chmod]⟩, by simp [Disk.chmod, programMode], fun q hq => ?_⟩
        show (if q = l.options.output then _ else (d.create l.options.output).mode q) = _
        rw [if_neg hq, Disk.create_mode, if_neg fun h => hq h.1]
      · cases h
    · cases h
    · cases h
  · cases h

/-- **C136, failure**, is violated whenever the output of an earlier link is overwritten: the empty file that the failed link leaves is still executable. -/
theorem C136_failure_violated {p : Path} {k : ErrKind} (h : linkOn parseElf parseAr d l sched fuel = some (.err p k d'))
    (hw : d.writable l.options.output = true) (hx : d.Executable l.options.output) :
    d'.Executable l.options.output ∧ d'.files l.options.output = some [] := by
  have h5 := (C65_error h).1 hw
  refine ⟨⟨by rw [h5]; exact nofun, ?_⟩, h5⟩
  unfold linkOn at h
  rw [if_pos hw] at h
  simp only [] at h
  split at h
  · cases h
  · split at h <;> cases h
  · cases h
    rw [Disk.create_mode, if_neg fun h => hx.1 h.2]
    exact hx.2
  · cases h

/-- **C136, failure**, what holds: a link that reports an error makes no file executable that was not, if new files are not. What is missing: outputs
that were executable before (`C136_failure_violated`). -/
theorem C136_failure_partial {p : Path} {k : ErrKind} (h : linkOn parseElf parseAr d l sched fuel = some (.err p k d')) (hc : d.created &&& 0o111 = 0)
    {q : Path} (hq : ¬ d.Executable q) : ¬ d'.Executable q := by
  have h5 := C65_error h
  unfold linkOn at h
  split at h
  · simp only [] at h
    split at h
    · cases h
    · split at h <;> cases h
    · cases h
      rintro ⟨h1, h2⟩
      rw [Disk.create_mode] at h2
      split at h2
      · exact h2 hc
      · next hn =>
        refine hq ⟨?_, h2⟩
        by_cases e : q = l.options.output
        · exact fun h => hn ⟨e, by rw [← e]; exact h⟩
        · rw [← h5.2.2 q e]; exact h1
    · cases h
  · cases h
    exact hq

/-- **C136, owner**, is violated: if the output is a file of somebody else that the user may write to, such as `/dev/null`, the linker crashes where it would have
succeeded. -/
theorem C136_owner_violated (ho : ¬ d.Own l.options.output) (hw : d.writable l.options.output = true) {file : Bytes}
    (h : link { read := (d.write l.options.output []).files, parseElf, parseAr } l sched fuel = some (.ok file)) :
    linkOn parseElf parseAr d l sched fuel = some .panic := by
  unfold linkOn
  rw [if_pos hw]
  simp only [Disk.create_files, h]
  rw [if_neg fun h => ho ((Disk.create_owned _ _).1 h)]

/-- **C136, owner**, what holds: with an output that is new or belongs to the user, the linker succeeds exactly if it can write the file and the link has a result,
and it crashes only where building the file does. What is missing: files of others (`C136_owner_violated`). -/
theorem C136_owner_partial (ho : d.Own l.options.output) (hw : d.writable l.options.output = true) :
    ((∃ d', linkOn parseElf parseAr d l sched fuel = some (.ok d')) ↔
      ∃ file, link { read := (d.write l.options.output []).files, parseElf, parseAr } l sched fuel = some (.ok file)) ∧
    (linkOn parseElf parseAr d l sched fuel = some .panic ↔
      link { read := (d.write l.options.output []).files, parseElf, parseAr } l sched fuel = some (.error .panic)) := by
  unfold linkOn
  rw [if_pos hw]
  have hc := (Disk.create_owned d l.options.output).2 ho
  simp only [Disk.create_files]
  cases link { read := (d.write l.options.output []).files, parseElf, parseAr } l sched fuel with
  | none => simp
  | some r =>
    cases r with
    | ok file => simp [hc]
    | error e => cases e <;> simp

end Linker

/-! ## Concrete cases -/

/-- the disk of the earlier example, where the output of the earlier link is executable -/
def modeDisk : Disk := { demoDisk with mode := fun p => if p = demoLinker.options.output then 0o755 else 0o600 }

/-- a successful link, and a failed one that leaves an executable empty file -/
example : (∃ d', Linker.linkOn demoEnv.parseElf demoEnv.parseAr modeDisk demoLinker LinkSched.id 5 = some (.ok d') ∧
      d'.mode demoLinker.options.output = 0o755 ∧ d'.mode mainPath = 0o600) ∧
    ∃ p k d', Linker.linkOn demoEnv.parseElf demoEnv.parseAr modeDisk bareLinker LinkSched.id 5 = some (.err p k d') ∧
      d'.Executable bareLinker.options.output ∧ d'.files bareLinker.options.output = some [] := by
  constructor
  · have h : (match Linker.linkOn demoEnv.parseElf demoEnv.parseAr modeDisk demoLinker LinkSched.id 5 with
      | some (.ok _) => true
      | _ => false) = true := by decide +kernel
    split at h
    · next d' e =>
      have := Linker.C136_success e
      exact ⟨d', e, this.2.1, (this.2.2 mainPath (by decide)).trans (by decide)⟩
    · cases h
  · have h : (match Linker.linkOn demoEnv.parseElf demoEnv.parseAr modeDisk bareLinker LinkSched.id 5 with
      | some (.err _ _ _) => true
      | _ => false) = true := by decide +kernel
    split at h
    · next p k d' e => exact ⟨p, k, d', e, Linker.C136_failure_violated e rfl ⟨by decide, by decide⟩⟩
    · cases h

/-- a failed link does not make an input executable -/
example {p : Path} {k : ErrKind} {d' : Disk} (h : Linker.linkOn demoEnv.parseElf demoEnv.parseAr modeDisk bareLinker LinkSched.id 5 = some (.err p k d')) :
    ¬ d'.Executable mainPath :=
  Linker.C136_failure_partial h rfl fun h => h.2 (by decide)

/-- an output that belongs to somebody else -/
example : Linker.linkOn demoEnv.parseElf demoEnv.parseAr { modeDisk with owned := fun _ => false } demoLinker LinkSched.id 5 = some .panic := by
  have h : (match Linker.link { read := (modeDisk.write demoLinker.options.output []).files, parseElf := demoEnv.parseElf, parseAr := demoEnv.parseAr } demoLinker LinkSched.id 5 with
    | some (.ok _) => true
    | _ => false) = true := by decide +kernel
  split at h
  · next file e =>
    exact Linker.C136_owner_violated (d := { modeDisk with owned := fun _ => false }) (by rintro (h | h) <;> revert h <;> decide) rfl e
  · cases h

end Dld
