import Verif.Spec.Rerun
import Verif.Props.Modes
/-! # C146: the previous output -/
namespace Dld
namespace Linker
variable {parseElf : Bytes → Option ElfFile} {parseAr : Bytes → Option ArFile} {d d' : Disk} {l : Linker} {sched : LinkSched} {fuel : Nat}

theorem SameBut.created (h : SameBut l.options.output d d') : (d'.create l.options.output).files = (d.create l.options.output).files := by
  rw [Disk.create_files, Disk.create_files]
  funext q
  by_cases hq : q = l.options.output
  · simp [Disk.write, hq]
  · simp [Disk.write, hq, h.files q hq]

/-- **C146.** What was at the place of the output before, and whether anything was there, has no influence on the link: it ends in the same way, with the same
files with the same contents. -/
theorem C146_previous (h : SameBut l.options.output d d') {o : Outcome} (hr : linkOn parseElf parseAr d l sched fuel = some o) :
    ∃ o', linkOn parseElf parseAr d' l sched fuel = some o' ∧ SameResult o o' := by
  have he := SameBut.created h
  have o1 := (d.create_owned l.options.output).2 h.own.1
  have o2 := (d'.create_owned l.options.output).2 h.own.2
  simp only [linkOn, h.writable.1, h.writable.2, if_true, o1, o2, he] at hr ⊢
  cases hl : link { read := (d.create l.options.output).files, parseElf, parseAr } l sched fuel with
  | none => rw [hl] at hr; cases hr
  | some r =>
    rw [hl] at hr
    cases r with
    | ok file =>
      cases hr
      refine ⟨_, rfl, ?_⟩
      show (fun q => if q = l.options.output then some file else (d'.create l.options.output).files q) =
        fun q => if q = l.options.output then some file else (d.create l.options.output).files q
      rw [he]
    | error f =>
      cases f with
      | panic => cases hr; exact ⟨_, rfl, trivial⟩
      | err p k => cases hr; exact ⟨_, rfl, rfl, rfl, he⟩

/-- **C146, repeated links.** After a successful link the same link, with the same order of its hash tables, succeeds again and leaves the same files. -/
theorem C146_again (hw : d.writable l.options.output = true) (h : linkOn parseElf parseAr d l sched fuel = some (.ok d')) :
    ∃ d'', linkOn parseElf parseAr d' l sched fuel = some (.ok d'') ∧ d''.files = d'.files ∧ d''.mode = d'.mode := by
  have hc : ∃ file, link { read := (d.create l.options.output).files, parseElf, parseAr } l sched fuel = some (.ok file) ∧
      (d.create l.options.output).owned l.options.output = true ∧
      d' = ((d.create l.options.output).write l.options.output file).chmod l.options.output 0o755 := by
    simp only [linkOn, hw, if_true] at h
    split at h
    · cases h
    · split at h
      · next file hl ho => cases h; exact ⟨file, hl, ho, rfl⟩
      · cases h
    · cases h
    · cases h
  obtain ⟨file, hl, ho, rfl⟩ := hc
  have hw' : (d.create l.options.output).writable = d.writable := by unfold Disk.create; split <;> rfl
  have hs : SameBut l.options.output d (((d.create l.options.output).write l.options.output file).chmod l.options.output 0o755) := by
    refine ⟨fun q hq => ?_, ⟨hw, ?_⟩, (d.create_owned _).1 ho, .inr ho⟩
    · show (if q = l.options.output then some file else (d.create l.options.output).files q) = d.files q
      rw [if_neg hq, Disk.create_files]
      exact if_neg hq
    · show (d.create l.options.output).writable l.options.output = true
      rw [hw', hw]
  obtain ⟨o', h1, h2⟩ := C146_previous hs h
  cases o' with
  | ok d'' =>
    refine ⟨d'', h1, h2, ?_⟩
    obtain ⟨_, m1, m2⟩ := C136_success h1
    funext q
    by_cases hq : q = l.options.output
    · rw [hq, m1]; simp [Disk.chmod, programMode]
    · exact m2 q hq
  | err p k d => exact h2.elim
  | panic => exact h2.elim

end Linker

/-- the same files without an earlier output -/
def freshDisk : Disk := { demoDisk with files := fun p => if p = demoLinker.options.output then none else demoEnv.read p }

/-- a link to a new file, one that replaces an old output, and the same link again -/
example : SameBut demoLinker.options.output demoDisk freshDisk ∧ ∃ d1 d2 d3, Linker.linkOn demoEnv.parseElf demoEnv.parseAr demoDisk demoLinker LinkSched.id 5 = some (.ok d1) ∧
    Linker.linkOn demoEnv.parseElf demoEnv.parseAr freshDisk demoLinker LinkSched.id 5 = some (.ok d2) ∧ d2.files = d1.files ∧
    Linker.linkOn demoEnv.parseElf demoEnv.parseAr d1 demoLinker LinkSched.id 5 = some (.ok d3) ∧ d3.files = d1.files := by
  have hs : SameBut demoLinker.options.output demoDisk freshDisk :=
    ⟨fun q hq => by simp [demoDisk, freshDisk, hq], ⟨rfl, rfl⟩, .inr rfl, .inl (by simp [freshDisk])⟩
  refine ⟨hs, ?_⟩
  have h : (match Linker.linkOn demoEnv.parseElf demoEnv.parseAr demoDisk demoLinker LinkSched.id 5 with
    | some (.ok _) => true
    | _ => false) = true := by decide +kernel
  split at h
  · next d1 e =>
    obtain ⟨o, h1, h2⟩ := Linker.C146_previous hs e
    obtain ⟨d3, h3, h4, _⟩ := Linker.C146_again rfl e
    cases o with
    | ok d2 => exact ⟨d1, d2, d3, e, h1, h2, h3, h4⟩
    | err p k d => exact h2.elim
    | panic => exact h2.elim
  · cases h

end Dld
