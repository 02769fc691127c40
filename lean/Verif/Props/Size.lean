import Verif.Spec.Size
import Verif.Props.CompleteAll
import Verif.Props.Full
import Verif.Props.Repeat
import Verif.Lemmas.Fails
/-! # C160: the size of the executable -/
namespace Dld
open Writer Spec StringTable
variable {env : Env} {l : Linker} {sched : LinkSched} {fuel : Nat} {F : List Nat} {V K : Nat}

/-- the file ends with the section headers, and these are small beside what precedes them -/
theorem Run.length_le {opts : Options} {ops : List Op} {sched : Sched} {w w' : Writer} {file : Bytes} {secs : List Section}
    (r : Run opts ops sched w w' file secs) (D : WellFormed opts ops w F V K) : file.length ≤ w.weight + 1024 + w.weight / 67 := by
  have h := r.hist
  have hv := r.valid
  obtain ⟨hn, hs, hds, hl, hc⟩ := D.names h
  have hlen := r.secs_length
  obtain ⟨hdr, lst, hL⟩ := r.laid D.good.flags
  obtain ⟨pre, e2, e3⟩ := (r.image D.good.flags D.good.dynamic D.good.clean hn).tab
  have htab : (serVec (fun s : Section => serSectionHeader s.sh) secs).length = secs.length * 64 :=
    length_flatMap_const (f := fun s : Section => serSectionHeader s.sh) (k := 64) (fun s => length_serSectionHeader s.sh) secs
  have hflen : file.length = w'.eh.e_shoff + 64 * secs.length := by
    have := congrArg List.length e2
    rw [List.length_append, e3, htab] at this
    omega
  obtain ⟨st, rfl⟩ := r.stages
  have hcount := hL.secs
  obtain ⟨entry, sh, ph, phs, h1, h2, h3, h4, _, h5⟩ := finishHeader_ok st.hfinal
  have hfo : st.final.eh.e_shoff ≤ w.weight + 1024 := by
    rw [h5]
    show st.tables.fileOffset ≤ _
    rw [st.final_post.2.2.2.2.2.2.2.2.1]
    exact st.toEarly.fileOffset_le hv h (by omega)
  have hw : 4300 * w.sections.length ≤ w.weight := by
    have : ∀ ss : List Section, 4300 * ss.length ≤ (ss.map fun s => s.sh.sh_size + 4300).sum := by
      intro ss
      induction ss with
      | nil => simp
      | cons a t ih => simp only [List.map_cons, List.sum_cons, List.length_cons]; omega
    have := this w.sections
    unfold Writer.weight
    omega
  omega

namespace Linker

/-- **C160.** The executable is hardly larger than what the inputs have room for: there is no input of moderate size for which the linker writes a file of
another order of magnitude, whatever the order in which it visits the hash tables. All hypotheses are about the contents of the files. -/
theorem C160_size {file : Bytes} (hc : CleanFiles env l) (hf : SoundFiles env l) (hr : SoundRelocs env l) (hn : NamesSmall env l) (hF : FewFlags env l F)
    (hv : sched.Valid) (hx : GlobalIndexes env l) (hb : ∀ n, PlainBinds env l n) (S : SmallWhole env l V K) (h : link env l sched fuel = some (.ok file)) :
    file.length ≤ inputSize env l + inputSize env l / 67 := by
  obtain ⟨_, _, w, w', secs, hg, _, h2, _⟩ := link_ok hv h
  obtain ⟨loaded, log, h4, hh, ho⟩ := gathered_entries_any hv hn hg
  have D := h4.digestible hh hc hf hr hn hF (SmallWhole.fits S h4 hh hc hn ho hx hb)
  have r : Run l.options (opsOf log) sched.toSched w w' file secs := ⟨hh, h2.valid, h2.compute, h2.write⟩
  have h5 := r.length_le D.toWellFormed
  have h6 := hh.span_le
  have h7 := Nat.le_trans (h4.cost_le ho) (Nat.add_le_add_right ((loaded_sum h4 hh hn hx hb).2 ElfFile.cost) _)
  have h8 : w.weight + 1024 ≤ inputSize env l := by
    unfold Writer.span reach at h6
    unfold inputSize
    omega
  have h9 : w.weight / 67 ≤ inputSize env l / 67 := Nat.div_le_div_right (by omega)
  omega

/-- an object that needs a function of a library and one of an archive: the program links, and the file has less than 128 KiB -/
example (hv : sched.Valid) : ∃ rounds file, (∀ fuel, rounds ≤ fuel → link demoEnv demoLinker sched fuel = some (.ok file)) ∧ file.length < 0x20000 := by
  obtain ⟨rounds, file, h⟩ := demo_complete hv
  refine ⟨rounds, file, h, Nat.lt_of_le_of_lt (C160_size demo_files demo_sound demo_relocs demo_names demo_flags hv demo_indexes demo_plainBinds demo_small
    (h rounds (Nat.le_refl _))) (by decide +kernel)⟩

/-- **C160** (room). On a file system with room for a file of that size the linker does not crash: it ends, and the whole executable is there, or it reports
an error. The files of the disk are those of the environment, the output is not one of the inputs, and it is a file that the user can write and owns. -/
theorem C160_room {room : Nat} {d : Disk} (hc : CleanFiles env l) (hf : SoundFiles env l) (hr : SoundRelocs env l) (hn : NamesSmall env l)
    (hF : FewFlags env l F) (hv : sched.Valid) (hx : GlobalIndexes env l) (hb : ∀ n, PlainBinds env l n) (S : SmallWhole env l V K)
    (hd : ∀ p ∈ l.objects ++ l.archives ++ l.options.sharedLibs.map (·.1), p ≠ l.options.output ∧ d.files p = env.read p)
    (hw : d.writable l.options.output = true) (ho : d.Own l.options.output) (hroom : inputSize env l + inputSize env l / 67 ≤ room) :
    ∃ rounds, (∃ file d', ∀ fuel, rounds ≤ fuel → link env l sched fuel = some (.ok file) ∧
        linkIn room env.parseElf env.parseAr d l sched fuel = some (.ok d') ∧ d'.files l.options.output = some file) ∨
      ∃ p k d', ∀ fuel, rounds ≤ fuel → link env l sched fuel = some (.error (.err p k)) ∧
        linkIn room env.parseElf env.parseAr d l sched fuel = some (.err p k d') := by
  have he : ∀ fuel, link { read := (d.create l.options.output).files, parseElf := env.parseElf, parseAr := env.parseAr } l sched fuel = link env l sched fuel :=
    fun fuel => Cli.link_reads hv (fun p hp => by
      show (d.create l.options.output).files p = _
      rw [Cli.create_files]
      simp only [if_neg (hd p hp).1, (hd p hp).2]) rfl rfl
  obtain ⟨rounds, res, hres⟩ := C60_terminates hx.truthful hv
  refine ⟨rounds, ?_⟩
  cases res with
  | ok file =>
    have hl : file.length ≤ room := Nat.le_trans (C160_size hc hf hr hn hF hv hx hb S (hres rounds (Nat.le_refl _))) hroom
    refine .inl ⟨file, (((d.create l.options.output).write l.options.output file).chmod l.options.output 0o755), fun fuel hfu => ?_⟩
    have h := hres fuel hfu
    obtain ⟨d', h1, h2, h3⟩ := C155_room (parseElf := env.parseElf) (parseAr := env.parseAr) (d := d) (l := l) (sched := sched) (fuel := fuel) hw ho
      ((he fuel).trans h) hl
    have hown := (Disk.create_owned d l.options.output).2 ho
    unfold linkOn at h2
    rw [if_pos hw] at h2
    simp only [(he fuel).trans h, hown, if_true] at h2
    cases h2
    exact ⟨h, h1, h3⟩
  | error e =>
    cases e with
    | panic => exact absurd (hres rounds (Nat.le_refl _)) (whole_no_panic hc hf hr hn hF hv hx hb S)
    | err p k =>
      refine .inr ⟨p, k, d.create l.options.output, fun fuel hfu => ⟨hres fuel hfu, ?_⟩⟩
      have h := (he fuel).trans (hres fuel hfu)
      rw [link_toWrite] at h
      unfold linkIn
      rw [if_pos hw]
      simp only
      cases ht : toWrite { read := (d.create l.options.output).files, parseElf := env.parseElf, parseAr := env.parseAr } l sched fuel with
      | none => rw [ht] at h; cases h
      | some r =>
        rw [ht] at h
        simp only [Option.map_some, Option.some.injEq] at h
        cases r with
        | error e => cases h; rfl
        | ok w =>
          simp only [ok_bind] at h
          cases hwr : w.writeToDisk sched.toSched with
          | error e =>
            rw [hwr] at h
            cases h
            cases writeToDisk_panics _ _ _ hwr
          | ok x => rw [hwr] at h; cases h

/-- with 128 KiB of room, and with an executable of an earlier link, the program is linked -/
example (hv : sched.Valid) : ∃ rounds file d', ∀ fuel, rounds ≤ fuel →
    linkIn 0x20000 demoEnv.parseElf demoEnv.parseAr smallDisk demoLinker sched fuel = some (.ok d') ∧ d'.files demoLinker.options.output = some file := by
  obtain ⟨n, file, h⟩ := demo_complete hv
  have := C160_room (room := 0x20000) (d := smallDisk) demo_files demo_sound demo_relocs demo_names demo_flags hv demo_indexes demo_plainBinds demo_small
    (by
      intro p hp
      have hne := (by decide : ∀ p ∈ demoLinker.objects ++ demoLinker.archives ++ demoLinker.options.sharedLibs.map (·.1), p ≠ demoLinker.options.output) p hp
      exact ⟨hne, if_neg hne⟩)
    rfl (.inr rfl) (by decide +kernel)
  obtain ⟨rounds, ⟨file, d', h1⟩ | ⟨p, k, d', h1⟩⟩ := this
  · exact ⟨rounds, file, d', fun fuel hf => (h1 fuel hf).2⟩
  · have h2 := (h1 (max n rounds) (Nat.le_max_right _ _)).1
    rw [h _ (Nat.le_max_left _ _)] at h2
    cases h2

end Linker
end Dld
