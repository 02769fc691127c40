import Verif.Props.File
import Verif.Lemmas.Weight
import Verif.Lemmas.DemoLink
import Verif.Spec.Loader
/-! # C161: what takes room in the executable -/
namespace Dld
open Writer Spec StringTable
variable {opts : Options} {ops : List Op} {sched : Sched} {w w' : Writer} {file : Bytes} {secs : List Section}

/-! ### The layout loop -/

theorem roundTo_ge (v : Nat) : v ≤ roundTo v PAGE_ALIGNMENT := by
  unfold roundTo PAGE_ALIGNMENT
  simp only
  split <;> omega

/-- a section takes its own size in the file, and less than a page more if a segment begins with it -/
theorem placeSection_extent (st : LayoutState) (s : Section) :
    st.fileOffset + st.extra.getD 0 + s.sizeOnDisk ≤ (placeSection st s).1.fileOffset + (placeSection st s).1.extra.getD 0 ∧
    (placeSection st s).1.fileOffset + (placeSection st s).1.extra.getD 0 ≤ st.fileOffset + st.extra.getD 0 + s.sizeOnDisk +
      4095 * (if s.sh.sh_flags ≠ st.flags then (if hasFlag s.sh.sh_flags SHF_ALLOC then 1 else 0) else 0) ∧
    (placeSection st s).1.flags = s.sh.sh_flags := by
  have h1 := roundTo_le st.fileOffset
  have h2 := roundTo_ge st.fileOffset
  unfold placeSection loadHeader placeInFile
  simp only
  split
  · split
    · have h3 : (s.setAddress (roundTo st.pVaddr PAGE_ALIGNMENT + st.extra.getD 0)).sizeOnDisk = s.sizeOnDisk := rfl
      simp only [Option.getD_none, h3]
      exact ⟨by omega, by omega, rfl⟩
    · simp only
      exact ⟨by omega, by omega, trivial⟩
  · rename_i hf
    have hf : st.flags = s.sh.sh_flags := by simpa [eq_comm] using hf
    split
    · simp only
      exact ⟨by omega, by omega, hf⟩
    · simp only
      exact ⟨by omega, by omega, hf⟩

theorem layoutLoop_extent (isInterp : SectionHeader → Bool) (l : List Section) (st : LayoutState) :
    st.fileOffset + st.extra.getD 0 + (l.map (·.sizeOnDisk)).sum ≤ (layoutLoop isInterp st l).1.fileOffset + (layoutLoop isInterp st l).1.extra.getD 0 ∧
    (layoutLoop isInterp st l).1.fileOffset + (layoutLoop isInterp st l).1.extra.getD 0 ≤
      st.fileOffset + st.extra.getD 0 + (l.map (·.sizeOnDisk)).sum + 4095 * countLoads st.flags l := by
  induction l generalizing st with
  | nil => simp [layoutLoop, countLoads]
  | cons s l ih =>
    simp only [layoutLoop, List.map_cons, List.sum_cons]
    obtain ⟨h1, h2⟩ := ih (layoutStep isInterp st s).1
    have h3 : (layoutStep isInterp st s).1.fileOffset = (placeSection st s).1.fileOffset := by rw [layoutStep_eq]
    have h4 : (layoutStep isInterp st s).1.extra = (placeSection st s).1.extra := by rw [layoutStep_eq]
    have h5 : (layoutStep isInterp st s).1.flags = (placeSection st s).1.flags := by rw [layoutStep_eq]
    obtain ⟨h6, h7, h8⟩ := placeSection_extent st s
    rw [h3, h4] at h1 h2
    rw [h5, h8] at h2
    refine ⟨by omega, ?_⟩
    rw [countLoads]
    split
    · rename_i hf
      rw [if_pos hf] at h7
      rw [Nat.mul_add]
      omega
    · rename_i hf
      rw [if_neg hf] at h7
      rw [show s.sh.sh_flags = st.flags by simpa using hf] at h2
      omega

/-! ### The finished file -/

theorem sizeOnDisk_null {l : List Section} (h : ∀ s ∈ l.head?, s.sizeOnDisk = 0) : ((l.drop 1).map (·.sizeOnDisk)).sum = (l.map (·.sizeOnDisk)).sum := by
  cases l with
  | nil => rfl
  | cons a l =>
    have := h a rfl
    simp only [List.drop_succ_cons, List.drop_zero, List.map_cons, List.sum_cons]
    omega

theorem Run.extent (r : Run opts ops sched w w' file secs) (hf : FlagsOk ops) (hn : ∀ s ∈ w'.sections.head?, s.sizeOnDisk = 0) :
    let loads := (w'.programHeaders.filter isLoad).length
    let room := 64 + 56 * (loads + 3) + (w'.sections.map (·.sizeOnDisk)).sum
    room ≤ w'.eh.e_shoff ∧ w'.eh.e_shoff ≤ room + 4095 * loads := by
  have h := r.hist
  have hv := r.valid
  obtain ⟨st, rfl⟩ := r.stages
  have hr := st.ready hv h.secFacts hf
  obtain ⟨p1, p2, p3, p4⟩ := st.placed_eq h.untouched
  obtain ⟨f1, f2, f3, _, _, _, _, _, f9, f10, _⟩ := st.final_post
  obtain ⟨entry, s, ph, phs, _, h2, _, _, _, h4⟩ := finishHeader_ok st.hfinal
  have hcnt := hr.loads_length (isInterp := fun sh => w.shstr.name sh.sh_name == some b!".interp")
    (phentsize := sizeofProgramHeader) (v0 := 0x200000)
  have hphs : ph = phdrPlaceholder ∧ phs =
      (finalState (fun sh => w.shstr.name sh.sh_name == some b!".interp") sizeofProgramHeader 0x200000 st.sorted.sections).1.phs := by
    rw [f2, p2] at h2
    simpa [eq_comm] using h2
  have hloads : st.final.programHeaders.filter isLoad =
      (finalState (fun sh => w.shstr.name sh.sh_name == some b!".interp") sizeofProgramHeader 0x200000 st.sorted.sections).1.phs.filter isLoad := by
    rw [h4, hphs.1, hphs.2]
    rfl
  have hshoff : st.final.eh.e_shoff =
      (finalState (fun sh => w.shstr.name sh.sh_name == some b!".interp") sizeofProgramHeader 0x200000 st.sorted.sections).1.fileOffset := by
    rw [h4]
    show st.tables.fileOffset = _
    rw [f9, p3]
  have hsz : st.final.sections.map (·.sizeOnDisk) = st.sorted.sections.map (·.sizeOnDisk) := by
    rw [map_of_map (G := fun s => s.sizeOnDisk) f1 (fun p => if p.2.2.2.2.sh_type ≠ SHT_NOBITS then p.2.2.2.2.sh_size else 0) (fun _ => rfl)]
    refine st.placed_core h.untouched _ fun s t hc => ?_
    obtain ⟨_, _, _, _, e5, _⟩ := hc
    unfold Section.sizeOnDisk
    rw [e5]
  have hnull : ((st.sorted.sections.drop 1).map (·.sizeOnDisk)).sum = (st.final.sections.map (·.sizeOnDisk)).sum := by
    rw [hsz]
    refine sizeOnDisk_null fun s hs => ?_
    have e := congrArg List.head? hsz
    rw [List.head?_map, List.head?_map, hs] at e
    cases hh : st.final.sections.head? with
    | none => rw [hh] at e; cases e
    | some t =>
      rw [hh] at e
      have := hn t hh
      simp only [Option.map_some, Option.some.injEq] at e
      omega
  have hextra : (finalState (fun sh => w.shstr.name sh.sh_name == some b!".interp") sizeofProgramHeader 0x200000 st.sorted.sections).1.extra = none := by
    by_cases he : (finalState (fun sh => w.shstr.name sh.sh_name == some b!".interp") sizeofProgramHeader 0x200000 st.sorted.sections).2 = []
    · have hl := congrArg List.length he
      unfold finalState at hl
      rw [layoutLoop_length] at hl
      exact absurd (List.length_eq_zero_iff.1 hl) hr.nonempty
    · exact (hr.inv.going he).1
  obtain ⟨b1, b2⟩ := layoutLoop_extent (fun sh => w.shstr.name sh.sh_name == some b!".interp") (st.sorted.sections.drop 1)
    { fileOffset := 0, pVaddr := 0x200000, extra := some (countProgramHeaders st.sorted.sections * sizeofProgramHeader + sizeofHeader), flags := 0, cur := none, phs := [] }
  unfold finalState at hextra hshoff
  rw [hextra, ← hshoff, hnull] at b1 b2
  have hc : countProgramHeaders st.sorted.sections = countLoads 0 (st.sorted.sections.drop 1) + 3 := rfl
  have hp : countProgramHeaders st.sorted.sections * sizeofProgramHeader + sizeofHeader = 56 * countProgramHeaders st.sorted.sections + 64 := by
    rw [Nat.mul_comm]; rfl
  simp only [Option.getD_some, Option.getD_none] at b1 b2
  rw [hp] at b1 b2
  rw [hloads]
  generalize ((finalState (fun sh => w.shstr.name sh.sh_name == some b!".interp") sizeofProgramHeader 0x200000 st.sorted.sections).1.phs.filter isLoad).length = n
    at hcnt ⊢
  dsimp only
  constructor <;> omega

/-- **C161.** In the file there are the ELF header, the program headers, the bytes of the sections, the section headers, and for each segment that is loaded
less than a page more. A section of type `SHT_NOBITS` takes no room, whatever its size. -/
theorem C161_extent (h : GoodRun opts ops sched w w' file secs) :
    let room := 64 + 56 * (decodeEhdr file).phnum + ((shdrs file).map EShdr.fileSize).sum + 64 * (decodeEhdr file).shnum
    room ≤ file.length ∧ file.length ≤ room + 4095 * (phdrsOf file 1).length := by
  have hr := h.run.reads h.good h.names h.fit
  have h37 := C37_program_headers_fit h.run h.good.flags h.good.dynamic h.names h.fit.segCount
  obtain ⟨nul, rest, hw, _⟩ := h.run.null_head
  obtain ⟨t0, rest', e0, _, _, _, _, _, _, e2, _⟩ := h.run.null_first h.good
  have hdisk : secs.map (·.sizeOnDisk) = w'.sections.map (·.sizeOnDisk) := by
    apply List.ext_getElem?
    intro i
    rw [List.getElem?_map, List.getElem?_map]
    cases hi : secs[i]? with
    | none => rw [List.getElem?_eq_none (by rw [← h.run.secs_length]; exact List.getElem?_eq_none_iff.1 hi)]
    | some t =>
      obtain ⟨s, hs, hfin, _⟩ := h.run.finalized hi
      rw [hs]
      simp only [Option.map_some, h.run.disk_eq (List.mem_of_getElem? hs) hfin]
  have hnull : ∀ s ∈ w'.sections.head?, s.sizeOnDisk = 0 := by
    intro s hs
    have e := congrArg List.head? hdisk
    rw [List.head?_map, List.head?_map, hs, e0] at e
    simp only [List.head?_cons, Option.map_some, Option.some.injEq] at e
    rw [← e]
    unfold Section.sizeOnDisk
    rw [e2]
    simp
  obtain ⟨b1, b2⟩ := h.run.extent h.good.flags hnull
  have hsum : ((shdrs file).map EShdr.fileSize).sum = (w'.sections.map (·.sizeOnDisk)).sum := by
    rw [hr.shdrs, ← hdisk, List.map_map]
    congr 1
    exact List.map_congr_left fun t _ => toSpec_fileSize t
  have hph : (phdrsOf file 1).length = (w'.programHeaders.filter isLoad).length := by
    unfold phdrsOf
    rw [hr.phdrs, List.filter_map, List.length_map]
    rfl
  have hlen := hr.length
  have hl : w'.programHeaders.length = (w'.programHeaders.filter isLoad).length + 3 := h37.2.1
  rw [hsum, hph, hr.ehdr]
  dsimp only
  rw [hlen]
  constructor <;> omega

/-- the demo link has three segments; two sections have 8 and 16 bytes in memory and none in the file -/
example : ∃ w w' f s, GoodRun Options.default demoOps Sched.rev w w' f s ∧
    (((shdrs f).filterMap fun e => if e.type = 8 then some e.size else none) == [8, 16] && (phdrsOf f 1).length == 3 && (decodeEhdr f).phnum == 6) = true :=
  GoodRun.of_runs Sched.rev_valid demo_good (by decide +kernel)

end Dld
