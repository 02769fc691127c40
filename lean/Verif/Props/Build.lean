import Verif.Props.Process
import Verif.Props.CompleteAr
import Verif.Props.Silent
import Verif.Lemmas.Reached
/-! # Command lines that name a complete program build it (C153) -/
namespace Dld
namespace Cli
variable {parseElf : Bytes → Option ElfFile} {parseAr : Bytes → Option ArFile} {fs : Fs} {writable : Bytes → Bool} {dirs : List Bytes → List Bytes}
  {sched : LinkSched} {parseFuel fuel rounds : Nat} {args : List Bytes} {ws : List Word}

theorem setInsert_nodup {l : List Bytes} (h : l.Nodup) (x : Bytes) : (setInsert l x).Nodup := by
  unfold setInsert
  split
  · exact h
  · next hx => exact List.nodup_append.2 ⟨h, by simp, fun a ha b hb => by simp at hb; rintro rfl; exact hx (hb ▸ ha)⟩

theorem search_nodup {dirs : List Bytes} {inputs : List (Bytes × Bool)} {acc found : Found} (h : searchForInputs fs dirs inputs acc = (found, none))
    (hn : acc.archives.Nodup) : found.archives.Nodup := by
  induction inputs generalizing acc with
  | nil => cases h; exact hn
  | cons e es ih =>
    rw [searchForInputs] at h
    cases h1 : searchOne fs dirs acc e with
    | error err => rw [h1] at h; cases h
    | ok acc' =>
      simp only [h1] at h
      refine ih h ?_
      obtain ⟨_, _, _, _, ⟨_, _, _, _, rfl⟩ | ⟨_, q, _, rfl⟩ | ⟨_, _, rfl⟩ | ⟨_, _, rfl⟩⟩ := searchOne_ok h1
      · exact hn
      · exact setInsert_nodup hn q
      · exact hn
      · exact hn

/-- no archive is given to the linker twice -/
theorem main_nodup (hd : ∀ l, (dirs l).Perm l) (hr : Reads args ws) (hn : NoScripts fs (dirsOf fs.canon ws) (inputsOf ws)) {app : App} {found : Found}
    (h : main fs dirs parseFuel fuel args = .link app found) : (toLinker app found).archives.Nodup := by
  obtain ⟨app0, found0, ha, hs, hp, hl⟩ := main_link h
  have M := C67_meaning fs.canon args app0 ha ws hr
  have hmem : ∀ d, d ∈ dirs app0.searchPaths ↔ d ∈ dirsOf fs.canon ws := by
    intro d
    rw [(hd _).mem_iff, M.searchPaths, dirsOf, List.mem_filterMap]
  have hnd := search_nodup hs List.nodup_nil
  rw [M.inputs] at hs
  obtain ⟨o, a, l, hg, h1, h2, h3, h4⟩ := search_gathers hs fun e he p c hst hrd => hn e he p c (hst.congr hmem) hrd
  cases fuel with
  | zero => cases hl
  | succ n =>
    rw [scriptLoop] at hl
    simp only [h4, List.getLast?_nil] at hl
    cases hl
    show (found.archives.map Path.of).Nodup
    rw [List.Nodup, List.pairwise_map]
    exact hnd.imp fun h e => h (Path.of_inj e)

/-- the arguments lead to a link if they can be read and every input is there -/
theorem main_links (hd : ∀ l, (dirs l).Perm l) (hr : Reads args ws) (hw : ∀ w ∈ ws, WordOk fs.canon w) (hh : ¬ HelpAsked ws) (hf : SoundFs fs)
    (hn : NoScripts fs (dirsOf fs.canon ws) (inputsOf ws)) (hi : ∀ e ∈ inputsOf ws, ∃ p, Stands fs (dirsOf fs.canon ws) e.1 p) :
    ∃ app found, main fs dirs parseFuel (fuel + 1) args = .link app found := by
  obtain ⟨app, ha⟩ := (C67_accepted fs.canon args).2 ⟨ws, hr, hw⟩
  have M := C67_meaning fs.canon args app ha ws hr
  have hmem : ∀ d, d ∈ dirs app.searchPaths ↔ d ∈ dirsOf fs.canon ws := by
    intro d
    rw [(hd _).mem_iff, M.searchPaths, dirsOf, List.mem_filterMap]
  rcases main_cases (fs := fs) (dirs := dirs) (parseFuel := parseFuel) (fuel := fuel + 1) (args := args) rfl with
    ⟨_, h⟩ | ⟨e', _, h⟩ | ⟨app', ha', ⟨_, _, h⟩ | ⟨_, _, _, hs⟩ | ⟨found, hs, ⟨_, h⟩ | ⟨_, h⟩⟩⟩
  · rw [h] at ha; cases ha
  · rw [h] at ha; cases ha
  · exact absurd h (search_panic hf)
  · rw [ha] at ha'
    cases ha'
    obtain ⟨b, hb, hp⟩ := search_notFound hs
    rw [M.inputs] at hb
    obtain ⟨p, hp'⟩ := hi _ hb
    exact absurd (hp'.congr fun d => (hmem d).symm) (hp p)
  · rw [ha] at ha'
    cases ha'
    exact absurd (M.help.1 h) hh
  · rw [ha] at ha'
    cases ha'
    rw [M.inputs] at hs
    obtain ⟨_, _, _, _, _, _, _, h4⟩ := search_gathers hs fun e he p c hst hrd => hn e he p c (hst.congr hmem) hrd
    rw [h, scriptLoop]
    simp only [h4, List.getLast?_nil]
    exact ⟨_, _, rfl⟩

/-- **C153.** If the arguments can be read and do not ask for help, every input stands for a file, none of which is a linker script, the output file can
be written, and the files that the inputs stand for can be linked, then the run ends with exit status 0, reports the executable at the path the
arguments name, has written what the link makes there, and has changed no other file. -/
theorem C153_build (hd : ∀ l, (dirs l).Perm l) (hr : Reads args ws) (hw : ∀ w ∈ ws, WordOk fs.canon w) (hh : ¬ HelpAsked ws)
    (hf : SoundFs fs) (hn : NoScripts fs (dirsOf fs.canon ws) (inputsOf ws)) (hi : ∀ e ∈ inputsOf ws, ∃ p, Stands fs (dirsOf fs.canon ws) e.1 p)
    (ho : writable (outputOf ws) = true)
    (hl : ∀ objects archives libs l, Gathers fs (dirsOf fs.canon ws) (inputsOf ws) objects archives libs → Wanted ws objects archives libs l →
      l.archives.Nodup → ∃ rounds file, ∀ k, rounds ≤ k → Linker.link (worldOf parseElf parseAr fs (outputOf ws)) l sched k = some (.ok file)) :
    ∃ rounds objects archives libs l file, Gathers fs (dirsOf fs.canon ws) (inputsOf ws) objects archives libs ∧ Wanted ws objects archives libs l ∧
      ∀ k, rounds ≤ k → Linker.link (worldOf parseElf parseAr fs (outputOf ws)) l sched k = some (.ok file) ∧
        ∃ files, run parseElf parseAr fs writable dirs sched parseFuel (fuel + 1) k args = some (.success (.executable (outputOf ws)) files) ∧
          files (outputOf ws) = some file ∧ ∀ q, q ≠ outputOf ws → files q = fs.read q := by
  obtain ⟨app, found, hm⟩ := main_links (parseFuel := parseFuel) (fuel := fuel) hd hr hw hh hf hn hi
  obtain ⟨o, a, ls, hg, W⟩ := main_wanted hd hr hn hm
  obtain ⟨rounds, file, hk⟩ := hl o a ls _ hg W (main_nodup hd hr hn hm)
  have hout : app.output = outputOf ws := Path.of_inj W.output
  refine ⟨rounds, o, a, ls, _, file, hg, W, fun k h => ⟨hk k h, ?_⟩⟩
  have hk := hk k h
  unfold run
  simp only [hm]
  unfold Linker.linkOn
  rw [if_pos (show (diskOf fs writable).writable (toLinker app found).options.output = true by show writable app.output = true; rw [hout]; exact ho)]
  simp only
  rw [Disk.create_files, world_eq, hout, hk]
  simp only
  have hown : ((diskOf fs writable).create (toLinker app found).options.output).owned (toLinker app found).options.output = true := by
    unfold Disk.create
    split
    · rfl
    · exact if_pos rfl
  rw [if_pos hown]
  refine ⟨_, rfl, ?_, fun q hq => ?_⟩
  · show (if Path.of (outputOf ws) = Path.of app.output then some file else _) = _
    rw [hout, if_pos rfl]
  · show (if Path.of q = Path.of app.output then some file else Disk.files _ (Path.of q)) = _
    have hne : ¬ Path.of q = Path.of app.output := fun e => hq ((Path.of_inj e).trans hout)
    rw [if_neg hne, Disk.create_files]
    show (if Path.of q = Path.of app.output then _ else _) = _
    rw [if_neg hne]
    rfl

/-! ### Two objects -/

/-- the command line `dld main.o g.o`, where `main.o` calls a function of `g.o` -/
def buildArgs : List Bytes := [b!"main.o", b!"g.o"]
def buildWords : List Word := [(b!"main.o", none), (b!"g.o", none)]
def buildMain : Bytes := elfHead 1 ++ List.replicate 16 0x90
def buildG : Bytes := elfHead 1 ++ List.replicate 8 0xc3
def buildFs : Fs := textFs [(b!"main.o", buildMain), (b!"g.o", buildG)]
def buildElfs : List (Bytes × ElfFile) :=
  [(buildMain, { Linker.callerElf with sectionHeaders := procMain.sectionHeaders }), (buildG, procG)]
def buildFiles : List (Path × Bytes) := [(mainPath, buildMain), (Linker.calleePath, buildG)]

/-- the inputs stand for these two files -/
theorem build_stands {e : Bytes × Bool} {p : Bytes} (h : Stands buildFs [] e.1 p) : p = e.1 := by
  obtain ⟨_, h | ⟨d, hd, _⟩⟩ := h
  · exact h
  · cases hd

theorem build_gathers {o a : List Bytes} {ls : List (Bytes × Bool)} (h : Gathers buildFs [] [(b!"main.o", false), (b!"g.o", false)] o a ls) :
    o = [b!"main.o", b!"g.o"] ∧ a = [] ∧ ls = [] := by
  have hm : buildFs.read b!"main.o" = some buildMain := by decide +kernel
  have hg : buildFs.read b!"g.o" = some buildG := by decide +kernel
  have m1 : ¬ IsAr buildMain := by unfold IsAr; decide +kernel
  have m2 : ¬ IsDyn buildMain := by unfold IsDyn; decide +kernel
  have g1 : ¬ IsAr buildG := by unfold IsAr; decide +kernel
  have g2 : ¬ IsDyn buildG := by unfold IsDyn; decide +kernel
  cases h with
  | object hs hr _ _ hq h =>
    cases build_stands (e := (b!"main.o", false)) hs
    cases hq
    cases h with
    | object hs hr _ _ hq h =>
      cases build_stands (e := (b!"g.o", false)) hs
      cases hq
      cases h
      exact ⟨rfl, rfl, rfl⟩
    | archive hs hr hi =>
      cases build_stands (e := (b!"g.o", false)) hs
      rw [hg] at hr; cases hr; exact absurd hi g1
    | lib hs hr _ hi =>
      cases build_stands (e := (b!"g.o", false)) hs
      rw [hg] at hr; cases hr; exact absurd hi g2
  | archive hs hr hi =>
    cases build_stands (e := (b!"main.o", false)) hs
    rw [hm] at hr; cases hr; exact absurd hi m1
  | lib hs hr _ hi =>
    cases build_stands (e := (b!"main.o", false)) hs
    rw [hm] at hr; cases hr; exact absurd hi m2

open Linker in
/-- the two files can be linked -/
theorem build_links {sched : LinkSched} (hv : sched.Valid) : ∃ rounds file, ∀ fuel, rounds ≤ fuel →
    link (tableEnv buildFiles buildElfs []) pairLinker sched fuel = some (.ok file) := by
  refine C140_objects_partial (F := [0, 6]) (V := 100) (K := 1) (CleanFiles.of_table (by decide +kernel)) (SoundFiles.of_table (by decide +kernel) (by decide) ?_ ?_)
    (SoundRelocs.of_table (by decide +kernel) (by decide +kernel)) (NamesSmall.of_table (by decide +kernel)) (FewFlags.of_table (by decide +kernel) (by decide)) hv rfl rfl ?_
    (ReadableFiles.of_table rfl rfl (by decide +kernel) (by decide +kernel)) (DefinedOnce.of_table rfl (by decide) (by decide +kernel)) ?_
  · intro p hp; cases hp
  · intro p hp; cases hp
  · refine ⟨by decide +kernel, by decide +kernel, ⟨by decide, ?_⟩, by decide +kernel⟩
    intro n
    exact pair_small.definitions.2 n
  · rintro n ⟨s, hs, h0, hb⟩
    have := (by decide +kernel : ∀ x ∈ (tableSyms buildFiles buildElfs [mainPath, calleePath]).map (·.2),
      x.1.st_shndx = 0 → (x.1.st_info / 16 = 1 ∨ x.1.st_info / 16 = 2) → x.2 = b!"g") _ (Mentioned.of_table hs) h0 hb
    cases this
    exact .inr (.inl ⟨_, ⟨⟨.object 1, calleePath, buildG, procG⟩, .tail _ (.head _), .tail _ (.head _), rfl, by decide⟩, by decide, by decide⟩)

open Linker in
/-- the run succeeds -/
example (sched : LinkSched) (hv : sched.Valid) : ∃ rounds file, ∀ k, rounds ≤ k →
    ∃ files, run (AMap.get? buildElfs) (fun _ => none) buildFs (fun _ => true) id sched 0 1 k buildArgs = some (.success (.executable b!"./out") files) ∧
      files b!"./out" = some file ∧ files b!"main.o" = some buildMain := by
  have hr : Reads buildArgs buildWords := .alone (by decide) (by decide) (.alone (by decide) (by decide) .nil)
  have hin : inputsOf buildWords = [(b!"main.o", false), (b!"g.o", false)] := by decide +kernel
  have hd : dirsOf buildFs.canon buildWords = [] := by decide +kernel
  obtain ⟨rounds, o, a, ls, l, file, _, _, h⟩ := C153_build (parseElf := AMap.get? buildElfs) (parseAr := fun _ => none) (fs := buildFs) (writable := fun _ => true)
    (dirs := id) (sched := sched) (parseFuel := 0) (fuel := 0) (fun l => List.Perm.refl l) hr
    (by
      intro w hw
      simp only [buildWords, List.mem_cons, List.not_mem_nil, or_false] at hw
      rcases hw with rfl | rfl
      · refine ⟨by decide, fun v h => absurd h (by decide), by decide, by decide⟩
      · refine ⟨by decide, fun v h => absurd h (by decide), by decide, by decide⟩)
    (by rintro (h | h) <;> revert h <;> decide +kernel) (fun p h => ⟨h, rfl⟩)
    (by
      rw [hin, hd]
      intro e he p c hs hrd
      have := build_stands hs
      simp only [List.mem_cons, List.not_mem_nil, or_false] at he
      rcases he with rfl | rfl
      · rw [this, show buildFs.read b!"main.o" = some buildMain by decide +kernel] at hrd; cases hrd; exact .inl (by unfold IsElf; decide +kernel)
      · rw [this, show buildFs.read b!"g.o" = some buildG by decide +kernel] at hrd; cases hrd; exact .inl (by unfold IsElf; decide +kernel))
    (by
      rw [hin, hd]
      intro e he
      simp only [List.mem_cons, List.not_mem_nil, or_false] at he
      rcases he with rfl | rfl
      · exact ⟨b!"main.o", by decide +kernel, .inl rfl⟩
      · exact ⟨b!"g.o", by decide +kernel, .inl rfl⟩)
    rfl
    (by
      rw [hin, hd]
      intro o a ls l hg W _
      obtain ⟨rfl, rfl, rfl⟩ := build_gathers hg
      obtain ⟨rounds, file, hk⟩ := build_links hv
      refine ⟨rounds, file, fun k h => ?_⟩
      rw [← hk k h]
      obtain ⟨w1, w2, w3, w4, w5, w6⟩ := W
      have w5' : l.archives = [] := List.eq_nil_iff_forall_not_mem.2 fun p hp => by simpa using (w5 p).1 hp
      have e : link (tableEnv buildFiles buildElfs []) pairLinker sched k = link (tableEnv buildFiles buildElfs []) l sched k := by
        obtain ⟨⟨o1, o2, o3, o4, o5, o6, o7⟩, o8, o9⟩ := l
        simp only at w1 w2 w3 w4 w5' w6
        rw [show Path.of (outputOf buildWords) = ⟨b!"./out", some b!"out"⟩ by decide +kernel] at w1
        rw [show Path.of (((valuesOf b!"-dynamic-linker" buildWords).getLast?).getD b!"/lib64/ld-linux-x86-64.so.2") =
          ⟨b!"/lib64/ld-linux-x86-64.so.2", some b!"ld-linux-x86-64.so.2"⟩ by decide +kernel] at w2
        rw [show ((stylesOf buildWords).getLast?).getD HashStyle.both = .both by decide +kernel] at w3
        rw [show [b!"main.o", b!"g.o"].map Path.of = [mainPath, calleePath] by decide +kernel] at w4
        subst w1 w2 w3 w4 w5' w6
        exact (link_asked (tableEnv buildFiles buildElfs []) pairLinker sched k o2 o4 o5).symm
      rw [e]
      refine link_same (env := tableEnv buildFiles buildElfs []) (env' := worldOf (AMap.get? buildElfs) (fun _ => none) buildFs (outputOf buildWords)) (l := l) hv
        ⟨fun _ => rfl, ?_, ?_⟩ (NamesSmall.of_table (files := buildFiles) (elfs := buildElfs) (by decide +kernel)) k
      · intro p hp
        rw [w4, w6] at hp
        simp only [List.map_cons, List.map_nil, List.mem_cons, List.not_mem_nil, or_false] at hp
        rcases hp with rfl | rfl <;> decide +kernel
      · rw [w5']
        intro p hp
        cases hp)
  refine ⟨rounds, file, fun k hk => ?_⟩
  obtain ⟨files, h1, h2, h3⟩ := (h k hk).2
  exact ⟨files, h1, h2, (h3 b!"main.o" (by decide +kernel)).trans (by decide +kernel)⟩

end Cli
end Dld
