import Verif.Model.Disk
import Verif.Props.Resolve
/-! # What a link does to the file system -/
namespace Dld
open Spec

@[simp] theorem Disk.create_files (d : Disk) (p : Path) : (d.create p).files = (d.write p []).files := by
  unfold Disk.create; split <;> rfl

namespace Linker
variable {parseElf : Bytes → Option ElfFile} {parseAr : Bytes → Option ArFile} {d d' : Disk} {l : Linker} {sched : LinkSched} {fuel : Nat}

/-- **C65**: a link that reports an error leaves an empty output file, whatever it was before, or, when that file could not be
created, everything as it was. No other file is changed. -/
theorem C65_error {p : Path} {k : ErrKind} (h : linkOn parseElf parseAr d l sched fuel = some (.err p k d')) :
    (d.writable l.options.output = true → d'.files l.options.output = some []) ∧
    (d.writable l.options.output = false → d'.files l.options.output = d.files l.options.output) ∧
    ∀ q, q ≠ l.options.output → d'.files q = d.files q := by
  unfold linkOn at h
  split at h
  · next hw =>
    simp only [] at h
    split at h
    · cases h
    · split at h <;> cases h
    · cases h
      refine ⟨fun _ => by simp [Disk.write], fun h => ?_, fun q hq => by simp [Disk.write, hq]⟩
      rw [hw] at h
      cases h
    · cases h
  · next hw =>
    cases h
    exact ⟨fun h => absurd h hw, fun _ => rfl, fun _ _ => rfl⟩

/-- **C65**: a link that succeeds leaves the whole file, and changes no other. -/
theorem C65_ok (hv : sched.Valid) (h : linkOn parseElf parseAr d l sched fuel = some (.ok d')) :
    (∃ file, link { read := (d.write l.options.output []).files, parseElf, parseAr } l sched fuel = some (.ok file) ∧
      d'.files l.options.output = some file ∧ file ≠ []) ∧
    ∀ q, q ≠ l.options.output → d'.files q = d.files q := by
  unfold linkOn at h
  split at h
  · simp only [] at h
    split at h
    · cases h
    · next file hf =>
      split at h
      case isFalse => cases h
      cases h
      rw [Disk.create_files] at hf
      refine ⟨⟨file, hf, by simp [Disk.write, Disk.chmod], ?_⟩, fun q hq => by simp [Disk.write, Disk.chmod, hq]⟩
      obtain ⟨log, loaded, w, w', secs, hg, hc, hr, _⟩ := link_ok hv hf
      have := hr.write
      simp only [Writer.writeToDisk, bind_ok] at this
      obtain ⟨⟨body, t⟩, _, e⟩ := this
      cases e
      intro e
      simp only [List.append_eq_nil_iff] at e
      have := congrArg List.length e.1.1.1
      simp [serHeader] at this
    · cases h
    · cases h
  · cases h

/-- **C65**: the output file is emptied before the inputs are read: a link whose output is one of its objects never succeeds, the empty file not being an ELF file,
and the object is lost. -/
theorem C65_own_input (hv : sched.Valid) (he : parseElf [] = none) (ho : l.options.output ∈ l.objects) :
    (∀ d', linkOn parseElf parseAr d l sched fuel ≠ some (.ok d')) ∧
    ∀ p k d', linkOn parseElf parseAr d l sched fuel = some (.err p k d') → d.writable l.options.output = true →
      d'.files l.options.output = some [] := by
  refine ⟨?_, fun p k d' h hw => (C65_error h).1 hw⟩
  intro d' h
  obtain ⟨⟨file, hf, _⟩, _⟩ := C65_ok hv h
  obtain ⟨log, loaded, w, w', secs, hg, hc, hr, _⟩ := link_ok hv hf
  obtain ⟨b, e, hb, hp⟩ := hc.readable _ ho
  simp only [Disk.write, if_true, Option.some.injEq] at hb
  subst hb
  rw [show ({ read := (d.write l.options.output []).files, parseElf, parseAr } : Env).parseElf [] = none from he] at hp
  cases hp

end Linker

/-- the files of the demonstration, and an output of an earlier link -/
def demoDisk : Disk := { files := fun p => if p = demoLinker.options.output then some b!"old" else demoEnv.read p, writable := fun _ => true }

/-- a link that succeeds, one that fails, and one that is to overwrite its input -/
example : (∃ d', Linker.linkOn demoEnv.parseElf demoEnv.parseAr demoDisk demoLinker LinkSched.id 5 = some (.ok d')) ∧
    (∃ p k d', Linker.linkOn demoEnv.parseElf demoEnv.parseAr demoDisk bareLinker LinkSched.id 5 = some (.err p k d')) ∧
    demoEnv.parseElf [] = none ∧
    ∃ p k d', Linker.linkOn demoEnv.parseElf demoEnv.parseAr demoDisk { bareLinker with options := { Options.default with output := mainPath } }
      LinkSched.id 5 = some (.err p k d') := by
  have h : ∀ l, (match Linker.linkOn demoEnv.parseElf demoEnv.parseAr demoDisk l LinkSched.id 5 with
    | some (.err _ _ _) => true
    | _ => false) = true → ∃ p k d', Linker.linkOn demoEnv.parseElf demoEnv.parseAr demoDisk l LinkSched.id 5 = some (.err p k d') := by
    intro l h
    split at h
    · next p k d' e => exact ⟨p, k, d', e⟩
    · cases h
  refine ⟨?_, h _ (by decide +kernel), rfl, h _ (by decide +kernel)⟩
  have h : (match Linker.linkOn demoEnv.parseElf demoEnv.parseAr demoDisk demoLinker LinkSched.id 5 with
    | some (.ok _) => true
    | _ => false) = true := by decide +kernel
  split at h
  · next d' e => exact ⟨d', e⟩
  · cases h

end Dld
