import Verif.Spec.Process
import Verif.Props.Main
import Verif.Props.Disk
import Verif.Props.Errors
import Verif.Props.Values
import Verif.Lemmas.DemoLink
/-! # Runs of the program (C104–C109) -/
namespace Dld
namespace Cli

theorem stands_iff {fs : Fs} {dirs : List Bytes} {n p : Bytes} : Stands fs dirs n p ↔ Candidate fs dirs n p := by
  unfold Stands Candidate libName
  rw [show b!"lib" ++ n ++ b!".so" = b!"lib" ++ n ++ [46] ++ b!"so" by rw [List.append_assoc]; simp,
    show b!"lib" ++ n ++ b!".a" = b!"lib" ++ n ++ [46] ++ b!"a" by simp]

theorem Stands.congr {fs : Fs} {dirs dirs' : List Bytes} {n p : Bytes} (hd : ∀ d, d ∈ dirs ↔ d ∈ dirs') (h : Stands fs dirs n p) :
    Stands fs dirs' n p := by
  obtain ⟨h1, h2 | ⟨d, hd1, h2⟩⟩ := h
  · exact ⟨h1, .inl h2⟩
  · exact ⟨h1, .inr ⟨d, (hd d).1 hd1, h2⟩⟩

/-- one successful step of the search, by the kind of the file -/
theorem searchOne_ok {fs : Fs} {dirs : List Bytes} {acc acc' : Found} {e : Bytes × Bool} (h : searchOne fs dirs acc e = .ok acc') :
    ∃ p c, Stands fs dirs e.1 p ∧ fs.read p = some c ∧
      ((IsElf c ∧ ¬ IsDyn c ∧ ∃ q, fs.canon p = some q ∧ acc' = { acc with objects := acc.objects ++ [q] }) ∨
       (IsAr c ∧ ∃ q, fs.canon p = some q ∧ acc' = { acc with archives := setInsert acc.archives q }) ∨
       (IsElf c ∧ IsDyn c ∧ acc' = { acc with sharedLibs := acc.sharedLibs ++ [(p, e.2)] }) ∨
       (¬ IsElf c ∧ ¬ IsAr c ∧ acc' = { acc with scripts := acc.scripts ++ [p] })) := by
  unfold searchOne at h
  cases hf : findInput fs dirs e.1 with
  | none => rw [hf] at h; cases h
  | some p =>
    simp only [hf] at h
    cases hr : fs.read p with
    | none => rw [hr] at h; cases h
    | some c =>
      simp only [hr] at h
      refine ⟨p, c, stands_iff.2 ((C72_search_partial fs dirs e.1).1 p hf), hr, ?_⟩
      obtain ⟨t1, t2, t3, t4⟩ := C71_file_type c
      cases ht : fileType c with
      | archive =>
        simp only [ht] at h
        cases hc : fs.canon p with
        | none => rw [hc] at h; cases h
        | some q => rw [hc] at h; cases h; exact .inr (.inl ⟨t1.1 ht, q, rfl, rfl⟩)
      | elfObject =>
        simp only [ht] at h
        cases hc : fs.canon p with
        | none => rw [hc] at h; cases h
        | some q =>
          rw [hc] at h; cases h
          have := t3.1 ht
          exact .inl ⟨⟨this.1, this.2.1⟩, this.2.2, q, rfl, rfl⟩
      | elfSharedLib =>
        simp only [ht] at h
        cases h
        have := t2.1 ht
        exact .inr (.inr (.inl ⟨⟨this.1, this.2.1⟩, this.2.2, rfl⟩))
      | text =>
        simp only [ht] at h
        cases h
        refine .inr (.inr (.inr ⟨?_, ?_, rfl⟩))
        · rintro ⟨h1, h2⟩
          rcases t4.1 ht with h | h
          · omega
          · exact h.2 h2
        · rintro ⟨h1, h2⟩
          rcases t4.1 ht with h | h
          · omega
          · exact h.1 h2

/-- a search that finds no scripts -/
theorem search_gathers {fs : Fs} {dirs : List Bytes} {inputs : List (Bytes × Bool)} {acc found : Found}
    (h : searchForInputs fs dirs inputs acc = (found, none)) (hn : NoScripts fs dirs inputs) :
    ∃ o a l, Gathers fs dirs inputs o a l ∧ found.objects = acc.objects ++ o ∧ (∀ p, p ∈ found.archives ↔ p ∈ acc.archives ∨ p ∈ a) ∧
      found.sharedLibs = acc.sharedLibs ++ l ∧ found.scripts = acc.scripts := by
  induction inputs generalizing acc with
  | nil => cases h; exact ⟨[], [], [], .nil, by simp, by simp, by simp, rfl⟩
  | cons e es ih =>
    rw [searchForInputs] at h
    cases h1 : searchOne fs dirs acc e with
    | error err => rw [h1] at h; cases h
    | ok acc' =>
      simp only [h1] at h
      obtain ⟨o, a, l, hg, h2, h3, h4, h5⟩ := ih h fun x hx => hn x (List.mem_cons_of_mem _ hx)
      obtain ⟨p, c, hs, hr, hk⟩ := searchOne_ok h1
      obtain ⟨n, b⟩ := e
      rcases hk with ⟨k1, k2, q, k3, rfl⟩ | ⟨k1, q, k3, rfl⟩ | ⟨k1, k2, rfl⟩ | ⟨k1, k2, rfl⟩
      · exact ⟨q :: o, a, l, .object hs hr k1 k2 k3 hg, by rw [h2]; simp, h3, h4, h5⟩
      · refine ⟨o, q :: a, l, .archive hs hr k1 k3 hg, h2, fun p => ?_, h4, h5⟩
        rw [h3, mem_setInsert, List.mem_cons]
        constructor
        · rintro ((h | h) | h)
          · exact .inl h
          · exact .inr (.inl h.symm)
          · exact .inr (.inr h)
        · rintro (h | h | h)
          · exact .inl (.inl h)
          · exact .inl (.inr h.symm)
          · exact .inr h
      · exact ⟨o, a, (p, b) :: l, .lib hs hr k1 k2 hg, h2, h3, by rw [h4]; simp, h5⟩
      · rcases hn (n, b) List.mem_cons_self p c hs hr with h | h
        · exact absurd h k1
        · exact absurd h k2

theorem Gathers.congr {fs : Fs} {dirs dirs' : List Bytes} (hd : ∀ d, d ∈ dirs ↔ d ∈ dirs') {i o a l} (h : Gathers fs dirs i o a l) :
    Gathers fs dirs' i o a l := by
  induction h with
  | nil => exact .nil
  | object h1 h2 h3 h4 h5 _ ih => exact .object (h1.congr hd) h2 h3 h4 h5 ih
  | archive h1 h2 h3 h4 _ ih => exact .archive (h1.congr hd) h2 h3 h4 ih
  | lib h1 h2 h3 h4 _ ih => exact .lib (h1.congr hd) h2 h3 h4 ih

variable {parseElf : Bytes → Option ElfFile} {parseAr : Bytes → Option ArFile} {fs : Fs} {writable : Bytes → Bool}
  {dirs : List Bytes → List Bytes} {sched : LinkSched} {parseFuel fuel rounds : Nat} {args : List Bytes} {ws : List Word}

theorem Path.of_inj {p q : Bytes} (h : Path.of p = Path.of q) : p = q := congrArg Path.full h

theorem world_eq (app : App) (found : Found) :
    ({ read := ((diskOf fs writable).write (toLinker app found).options.output []).files, parseElf, parseAr } : Env) =
      worldOf parseElf parseAr fs app.output := rfl

theorem scriptLoop_ends {app : App} {found : Found} :
    scriptLoop fs dirs parseFuel fuel app found ≠ .help ∧ ∀ lib, scriptLoop fs dirs parseFuel fuel app found ≠ .notFound lib := by
  induction fuel generalizing app found with
  | zero => exact ⟨fun h => (by cases h), fun _ h => (by cases h)⟩
  | succ n ih =>
    rw [scriptLoop]
    split
    · exact ⟨fun h => (by cases h), fun _ h => (by cases h)⟩
    · simp only
      split
      · exact ⟨fun h => (by cases h), fun _ h => (by cases h)⟩
      · split
        · exact ⟨fun h => (by cases h), fun _ h => (by cases h)⟩
        · exact ⟨fun h => (by cases h), fun _ h => (by cases h)⟩
        · exact ih
        · split
          · exact ⟨fun h => (by cases h), fun _ h => (by cases h)⟩
          · exact ⟨fun h => (by cases h), fun _ h => (by cases h)⟩
          · split
            · exact ⟨fun h => (by cases h), fun _ h => (by cases h)⟩
            · exact ih

/-- the ways `main` ends before the linker is called, or calls it -/
theorem main_cases {o : Outcome} (h : main fs dirs parseFuel fuel args = o) :
    (o = .panic ∧ handleArgs fs.canon args {} = .error .panic) ∨
    (∃ e, o = .badArgs e ∧ handleArgs fs.canon args {} = .error e) ∨
    ∃ app, handleArgs fs.canon args {} = .ok app ∧
      ((∃ found, o = .panic ∧ searchForInputs fs (dirs app.searchPaths) app.inputs {} = (found, some .panic)) ∨
       (∃ found lib, o = .notFound lib ∧ searchForInputs fs (dirs app.searchPaths) app.inputs {} = (found, some (.notFound lib))) ∨
       ∃ found, searchForInputs fs (dirs app.searchPaths) app.inputs {} = (found, none) ∧
        ((o = .help ∧ app.help = true) ∨
         (app.help = false ∧ o = scriptLoop fs dirs parseFuel fuel { app with inputs := [] } found))) := by
  unfold main at h
  cases hh : handleArgs fs.canon args {} with
  | error e =>
    rw [hh] at h
    cases e with
    | panic => exact .inl ⟨h.symm, rfl⟩
    | missing x => exact .inr (.inl ⟨_, h.symm, rfl⟩)
    | badValue x => exact .inr (.inl ⟨_, h.symm, rfl⟩)
  | ok app =>
    refine .inr (.inr ⟨app, rfl, ?_⟩)
    simp only [hh] at h
    cases hs : searchForInputs fs (dirs app.searchPaths) app.inputs {} with
    | mk found err =>
      rw [hs] at h
      cases err with
      | some err =>
        cases err with
        | panic => exact .inl ⟨found, h.symm, rfl⟩
        | notFound lib => exact .inr (.inl ⟨found, lib, h.symm, rfl⟩)
      | none =>
        refine .inr (.inr ⟨found, rfl, ?_⟩)
        simp only at h
        cases hp : app.help with
        | true => rw [hp, if_pos rfl] at h; exact .inl ⟨h.symm, rfl⟩
        | false => rw [hp, if_neg (by decide)] at h; exact .inr ⟨rfl, h.symm⟩

theorem main_help (h : main fs dirs parseFuel fuel args = .help) : ∃ app, handleArgs fs.canon args {} = .ok app ∧ app.help = true := by
  rcases main_cases h with ⟨h, _⟩ | ⟨e, h, _⟩ | ⟨app, ha, ⟨_, h, _⟩ | ⟨_, _, h, _⟩ | ⟨found, _, ⟨_, h⟩ | ⟨_, h⟩⟩⟩
  · cases h
  · cases h
  · cases h
  · cases h
  · exact ⟨app, ha, h⟩
  · exact absurd h.symm scriptLoop_ends.1

theorem main_link {app' : App} {found' : Found} (h : main fs dirs parseFuel fuel args = .link app' found') :
    ∃ app found, handleArgs fs.canon args {} = .ok app ∧ searchForInputs fs (dirs app.searchPaths) app.inputs {} = (found, none) ∧
      app.help = false ∧ scriptLoop fs dirs parseFuel fuel { app with inputs := [] } found = .link app' found' := by
  rcases main_cases h with ⟨h, _⟩ | ⟨e, h, _⟩ | ⟨app, ha, ⟨_, h, _⟩ | ⟨_, _, h, _⟩ | ⟨found, hs, ⟨h, _⟩ | ⟨hp, h⟩⟩⟩
  · cases h
  · cases h
  · cases h
  · cases h
  · cases h
  · exact ⟨app, found, ha, hs, hp, h.symm⟩

/-- **C104.** A run that ends with exit status 0 has printed the help text and changed nothing, because the arguments ask for that, or it has
written the executable it reports: the file is the result of a link, and no other file has changed. -/
theorem C104_success (hv : sched.Valid) {out : Printed} {files : Bytes → Option Bytes}
    (h : run parseElf parseAr fs writable dirs sched parseFuel fuel rounds args = some (.success out files)) :
    (out = .help ∧ files = fs.read ∧ ∀ ws, Reads args ws → HelpAsked ws) ∨
    ∃ output l file, out = .executable output ∧ l.options.output = Path.of output ∧
      Linker.link (worldOf parseElf parseAr fs output) l sched rounds = some (.ok file) ∧ file ≠ [] ∧ files output = some file ∧
      (∀ q, q ≠ output → files q = fs.read q) ∧ ∀ ws, Reads args ws → ¬ HelpAsked ws := by
  unfold run at h
  cases hm : main fs dirs parseFuel fuel args with
  | running => rw [hm] at h; cases h
  | panic => rw [hm] at h; cases h
  | badArgs e => rw [hm] at h; cases h
  | notFound lib => rw [hm] at h; cases h
  | help =>
    rw [hm] at h
    cases h
    obtain ⟨app, ha, hp⟩ := main_help hm
    exact .inl ⟨rfl, rfl, fun ws hr => (C67_meaning fs.canon args app ha ws hr).help.1 hp⟩
  | link app found =>
    simp only [hm] at h
    cases hl : (toLinker app found).linkOn parseElf parseAr (diskOf fs writable) sched rounds with
    | none => rw [hl] at h; cases h
    | some o =>
      cases o with
      | panic => rw [hl] at h; cases h
      | err p k d => rw [hl] at h; cases h
      | ok d =>
        rw [hl] at h
        cases h
        obtain ⟨⟨file, h1, h2, h3⟩, h4⟩ := Linker.C65_ok hv hl
        obtain ⟨app0, found0, ha, _, hp, _⟩ := main_link hm
        refine .inr ⟨app.output, toLinker app found, file, rfl, rfl, by rw [← world_eq]; exact h1, h3, h2, fun q hq => ?_, fun ws hr hh => ?_⟩
        · exact h4 (Path.of q) fun e => hq (Path.of_inj e)
        · rw [(C67_meaning fs.canon args app0 ha ws hr).help.2 hh] at hp
          cases hp

/-- what the linker is given when no input is a linker script -/
theorem main_wanted (hd : ∀ l, (dirs l).Perm l) (hr : Reads args ws) (hn : NoScripts fs (dirsOf fs.canon ws) (inputsOf ws)) {app : App} {found : Found}
    (h : main fs dirs parseFuel fuel args = .link app found) :
    ∃ objects archives libs, Gathers fs (dirsOf fs.canon ws) (inputsOf ws) objects archives libs ∧
      Wanted ws objects archives libs (toLinker app found) := by
  obtain ⟨app0, found0, ha, hs, hp, hl⟩ := main_link h
  have M := C67_meaning fs.canon args app0 ha ws hr
  have hmem : ∀ d, d ∈ dirs app0.searchPaths ↔ d ∈ dirsOf fs.canon ws := by
    intro d
    rw [(hd _).mem_iff, M.searchPaths, dirsOf, List.mem_filterMap]
  rw [M.inputs] at hs
  obtain ⟨o, a, l, hg, h1, h2, h3, h4⟩ := search_gathers hs fun e he p c hst hrd => hn e he p c (hst.congr hmem) hrd
  cases fuel with
  | zero => cases hl
  | succ n =>
    rw [scriptLoop] at hl
    simp only [h4, List.getLast?_nil] at hl
    cases hl
    refine ⟨o, a, l, hg.congr hmem, ?_⟩
    exact {
      output := by show Path.of app0.output = _; rw [M.output]; rfl
      dynamicLinker := by show Path.of app0.dynamicLinker = _; rw [M.dynamicLinker]
      hashStyle := M.hashStyle
      objects := by show found.objects.map Path.of = _; rw [h1]; rfl
      archives := by
        intro p
        show p ∈ found.archives.map Path.of ↔ _
        simp only [List.mem_map, h2, List.not_mem_nil, false_or]
      libs := by show found.sharedLibs.map _ = _; rw [h3]; rfl }

/-- **C104**, for command lines without linker scripts: the executable is at the path the arguments name, and is the result of linking exactly the
files the arguments name, with the options they give. -/
theorem C104_output (hv : sched.Valid) (hd : ∀ l, (dirs l).Perm l) (hr : Reads args ws) (hh : ¬ HelpAsked ws)
    (hn : NoScripts fs (dirsOf fs.canon ws) (inputsOf ws)) {out : Printed} {files : Bytes → Option Bytes}
    (h : run parseElf parseAr fs writable dirs sched parseFuel fuel rounds args = some (.success out files)) :
    out = .executable (outputOf ws) ∧ (∀ q, q ≠ outputOf ws → files q = fs.read q) ∧
    ∃ objects archives libs l file, Gathers fs (dirsOf fs.canon ws) (inputsOf ws) objects archives libs ∧ Wanted ws objects archives libs l ∧
      Linker.link (worldOf parseElf parseAr fs (outputOf ws)) l sched rounds = some (.ok file) ∧ files (outputOf ws) = some file := by
  unfold run at h
  cases hm : main fs dirs parseFuel fuel args with
  | running => rw [hm] at h; cases h
  | panic => rw [hm] at h; cases h
  | badArgs e => rw [hm] at h; cases h
  | notFound lib => rw [hm] at h; cases h
  | help =>
    obtain ⟨app, ha, hp⟩ := main_help hm
    exact absurd ((C67_meaning fs.canon args app ha ws hr).help.1 hp) hh
  | link app found =>
    simp only [hm] at h
    cases hl : (toLinker app found).linkOn parseElf parseAr (diskOf fs writable) sched rounds with
    | none => rw [hl] at h; cases h
    | some o =>
      cases o with
      | panic => rw [hl] at h; cases h
      | err p k d => rw [hl] at h; cases h
      | ok d =>
        rw [hl] at h
        cases h
        obtain ⟨⟨file, h1, h2, h3⟩, h4⟩ := Linker.C65_ok hv hl
        obtain ⟨o, a, l, hg, W⟩ := main_wanted hd hr hn hm
        have ho : app.output = outputOf ws := Path.of_inj W.output
        rw [world_eq, ho] at h1
        exact ⟨by rw [ho], fun q hq => h4 (Path.of q) fun e => hq ((Path.of_inj e).trans ho), o, a, l, _, file, hg, W, h1, by
          rw [← ho]; exact h2⟩

theorem search_notFound {fs : Fs} {dirs : List Bytes} {inputs : List (Bytes × Bool)} {acc found : Found} {lib : Bytes}
    (h : searchForInputs fs dirs inputs acc = (found, some (.notFound lib))) : ∃ b, (lib, b) ∈ inputs ∧ ∀ p, ¬ Stands fs dirs lib p := by
  induction inputs generalizing acc with
  | nil => cases h
  | cons e es ih =>
    rw [searchForInputs] at h
    cases h1 : searchOne fs dirs acc e with
    | ok acc' =>
      simp only [h1] at h
      obtain ⟨b, hb, hp⟩ := ih h
      exact ⟨b, List.mem_cons_of_mem _ hb, hp⟩
    | error err =>
      simp only [h1] at h
      cases h
      unfold searchOne at h1
      cases hf : findInput fs dirs e.1 with
      | none =>
        rw [hf] at h1
        cases h1
        exact ⟨e.2, List.mem_cons_self, fun p hp => (C72_search_partial fs dirs e.1).2.1.1 hf p (stands_iff.1 hp)⟩
      | some p =>
        exfalso
        simp only [hf] at h1
        split at h1
        · cases h1
        · split at h1
          · split at h1 <;> cases h1
          · split at h1 <;> cases h1
          · cases h1
          · cases h1

/-- **C105.** A run that ends with exit status 1 says why. Bad arguments and missing inputs are reported before anything is changed, and a file
reported missing is an input that stands for no file. Every other message comes from the linker, which then leaves an empty output file (or nothing
changed, if that file could not be created). -/
theorem C105_failure (hd : ∀ l, (dirs l).Perm l) (hr : Reads args ws) (hn : NoScripts fs (dirsOf fs.canon ws) (inputsOf ws)) {m : Report}
    {files : Bytes → Option Bytes} (h : run parseElf parseAr fs writable dirs sched parseFuel fuel rounds args = some (.failure m files)) :
    (∃ e, m = .arg e ∧ files = fs.read ∧ ∃ w ∈ ws, ¬ WordOk fs.canon w) ∨
    (∃ lib b, m = .notFound lib ∧ files = fs.read ∧ (lib, b) ∈ inputsOf ws ∧ ∀ p, ¬ Stands fs (dirsOf fs.canon ws) lib p) ∨
    (writable (outputOf ws) = false ∧ m = .link (outputOf ws) .input ∧ files = fs.read) ∨
    ∃ objects archives libs l p k, m = .link p.full k ∧ Gathers fs (dirsOf fs.canon ws) (inputsOf ws) objects archives libs ∧
      Wanted ws objects archives libs l ∧
      Linker.link (worldOf parseElf parseAr fs (outputOf ws)) l sched rounds = some (.error (.err p k)) ∧ files (outputOf ws) = some [] ∧
      ∀ q, q ≠ outputOf ws → files q = fs.read q := by
  unfold run at h
  cases hm : main fs dirs parseFuel fuel args with
  | running => rw [hm] at h; cases h
  | panic => rw [hm] at h; cases h
  | help => rw [hm] at h; cases h
  | badArgs e =>
    rw [hm] at h
    cases h
    refine .inl ⟨e, rfl, rfl, Classical.byContradiction fun hno => ?_⟩
    have hok : ∀ w ∈ ws, WordOk fs.canon w := fun w hw => Classical.byContradiction fun hb => hno ⟨w, hw, hb⟩
    obtain ⟨app, ha⟩ := (C67_accepted fs.canon args).2 ⟨ws, hr, hok⟩
    rcases main_cases hm with ⟨h, _⟩ | ⟨e', _, h⟩ | ⟨app', ha', ⟨_, h, _⟩ | ⟨_, _, h, _⟩ | ⟨found, hs, ⟨h, _⟩ | ⟨_, h⟩⟩⟩
    · cases h
    · rw [h] at ha; cases ha
    · cases h
    · cases h
    · cases h
    · have M := C67_meaning fs.canon args app' ha' ws hr
      have hmem : ∀ d, d ∈ dirs app'.searchPaths ↔ d ∈ dirsOf fs.canon ws := by
        intro d
        rw [(hd _).mem_iff, M.searchPaths, dirsOf, List.mem_filterMap]
      rw [M.inputs] at hs
      obtain ⟨_, _, _, _, _, _, _, h4⟩ := search_gathers hs fun e he p c hst hrd => hn e he p c (hst.congr hmem) hrd
      cases fuel with
      | zero => cases h
      | succ n =>
        rw [scriptLoop] at h
        simp only [h4, List.getLast?_nil] at h
        cases h
  | notFound lib =>
    rw [hm] at h
    cases h
    rcases main_cases hm with ⟨h, _⟩ | ⟨e', h, _⟩ | ⟨app', ha', ⟨_, h, _⟩ | ⟨_, _, h, hs⟩ | ⟨found, hs, ⟨h, _⟩ | ⟨_, h⟩⟩⟩
    · cases h
    · cases h
    · cases h
    · cases h
      have M := C67_meaning fs.canon args app' ha' ws hr
      have hmem : ∀ d, d ∈ dirsOf fs.canon ws ↔ d ∈ dirs app'.searchPaths := by
        intro d
        rw [(hd _).mem_iff, M.searchPaths, dirsOf, List.mem_filterMap]
      rw [M.inputs] at hs
      obtain ⟨b, hb, hp⟩ := search_notFound hs
      exact .inr (.inl ⟨lib, b, rfl, rfl, hb, fun p h => hp p (h.congr hmem)⟩)
    · cases h
    · exact absurd h.symm (scriptLoop_ends.2 lib)
  | link app found =>
    simp only [hm] at h
    obtain ⟨o, a, l, hg, W⟩ := main_wanted hd hr hn hm
    have ho : app.output = outputOf ws := Path.of_inj W.output
    cases hl : (toLinker app found).linkOn parseElf parseAr (diskOf fs writable) sched rounds with
    | none => rw [hl] at h; cases h
    | some r =>
      cases r with
      | panic => rw [hl] at h; cases h
      | ok d => rw [hl] at h; cases h
      | err p k d =>
        rw [hl] at h
        cases h
        have h5 := Linker.C65_error hl
        unfold Linker.linkOn at hl
        cases hw : writable app.output with
        | false =>
          rw [if_neg (by show ¬ writable app.output = true; rw [hw]; decide)] at hl
          cases hl
          refine .inr (.inr (.inl ⟨by rw [← ho]; exact hw, by rw [← ho]; rfl, rfl⟩))
        | true =>
          rw [if_pos (by exact hw)] at hl
          simp only at hl
          rw [Disk.create_files, world_eq] at hl
          refine .inr (.inr (.inr ⟨o, a, l, _, p, k, rfl, hg, W, ?_, ?_, fun q hq => ?_⟩))
          · rw [← ho]
            split at hl
            · cases hl
            · split at hl <;> cases hl
            · next e => cases hl; exact e
            · cases hl
          · rw [← ho]; exact h5.1 hw
          · exact h5.2.2 (Path.of q) fun e => hq ((Path.of_inj e).trans ho)

/-! ### Crashes (C106) -/

theorem applyWord_panic {canon : Bytes → Option Bytes} {app : App} {w : Word} (hw : WordForm w) (h : applyWord canon app w = .error .panic) :
    w.1 ≠ b!"-L" ∧ b!"-L".isPrefixOf w.1 = true ∧ canon (w.1.drop 2) = none := by
  obtain ⟨a, v⟩ := w
  unfold applyWord at h
  simp only at h
  by_cases c1 : a = b!"--build-id"
  · rw [if_pos c1] at h
    split at h
    · split at h <;> cases h
    · cases h
  rw [if_neg c1] at h
  by_cases c2 : a = b!"-m"
  · subst c2
    obtain ⟨v, rfl⟩ : ∃ x, v = some x := by simpa [WordForm, valueOpts, Option.isSome_iff_exists] using hw
    rw [if_pos rfl] at h
    simp only at h
    split at h <;> cases h
  rw [if_neg c2] at h
  by_cases c3 : a = b!"-o"
  · rw [if_pos c3] at h; cases h
  rw [if_neg c3] at h
  by_cases c4 : a = b!"--eh-frame-hdr"
  · rw [if_pos c4] at h; cases h
  rw [if_neg c4] at h
  by_cases c5 : a = b!"--help" ∨ a = b!"-h"
  · rw [if_pos c5] at h; cases h
  rw [if_neg c5] at h
  by_cases c6 : a = b!"-dynamic-linker"
  · rw [if_pos c6] at h; cases h
  rw [if_neg c6] at h
  by_cases c7 : a = b!"-L"
  · rw [if_pos c7] at h; cases h
  rw [if_neg c7] at h
  by_cases c8 : a = b!"-l"
  · rw [if_pos c8] at h; cases h
  rw [if_neg c8] at h
  by_cases c9 : a = b!"-z"
  · rw [if_pos c9] at h; cases h
  rw [if_neg c9] at h
  by_cases c10 : a = b!"--as-needed"
  · rw [if_pos c10] at h; cases h
  rw [if_neg c10] at h
  by_cases c11 : a = b!"--no-as-needed"
  · rw [if_pos c11] at h; cases h
  rw [if_neg c11] at h
  by_cases c12 : a = b!"--start-group" ∨ a = b!"--end-group"
  · rw [if_pos c12] at h; cases h
  rw [if_neg c12] at h
  unfold special at h
  rw [stripPrefix_eq, stripPrefix_eq, stripPrefix_eq] at h
  refine ⟨c7, ?_⟩
  cases hp : List.isPrefixOf b!"-L" a with
  | true =>
    rw [hp, if_pos rfl] at h
    simp only at h
    cases hc : canon (a.drop 2) with
    | none => exact ⟨rfl, rfl⟩
    | some d =>
      rw [show a.drop (List.length b!"-L") = a.drop 2 from rfl, hc] at h
      cases h
  | false =>
    rw [hp, if_neg (by decide)] at h
    simp only at h
    split at h
    · cases h
    · split at h
      · split at h <;> cases h
      · cases h

/-- the arguments make `main` crash only if a directory given with `-LDIRECTORY` does not exist -/
theorem handleArgs_panic {canon : Bytes → Option Bytes} (hr : Reads args ws) (h : handleArgs canon args {} = .error .panic) :
    ∃ w ∈ ws, w.1 ≠ b!"-L" ∧ b!"-L".isPrefixOf w.1 = true ∧ canon (w.1.drop 2) = none := by
  have fold : ∀ (ws : List Word) (app : App), (∀ w ∈ ws, WordForm w) → foldM' (applyWord canon) app ws = .error .panic →
      ∃ w ∈ ws, w.1 ≠ b!"-L" ∧ b!"-L".isPrefixOf w.1 = true ∧ canon (w.1.drop 2) = none := by
    intro ws
    induction ws with
    | nil => intro app _ h; cases h
    | cons w ws ih =>
      intro app hw h
      rw [foldM'_cons] at h
      cases h1 : applyWord canon app w with
      | error e =>
        rw [h1] at h
        cases h
        exact ⟨w, List.mem_cons_self, applyWord_panic (hw w List.mem_cons_self) h1⟩
      | ok app' =>
        rw [h1] at h
        obtain ⟨x, hx, hp⟩ := ih app' (fun x hx => hw x (List.mem_cons_of_mem _ hx)) h
        exact ⟨x, List.mem_cons_of_mem _ hx, hp⟩
  rw [handleArgs_words hr] at h
  exact fold ws _ hr.form h

/-- what reads and resolves when it is a file -/
def SoundFs (fs : Fs) : Prop := ∀ p, fs.isFile p = true → (fs.read p).isSome ∧ (fs.canon p).isSome

theorem search_panic {fs : Fs} (hf : SoundFs fs) {dirs : List Bytes} {inputs : List (Bytes × Bool)} {acc found : Found} :
    searchForInputs fs dirs inputs acc ≠ (found, some .panic) := by
  induction inputs generalizing acc with
  | nil => intro h; cases h
  | cons e es ih =>
    intro h
    rw [searchForInputs] at h
    cases h1 : searchOne fs dirs acc e with
    | ok acc' => simp only [h1] at h; exact ih h
    | error err =>
      simp only [h1] at h
      cases h
      unfold searchOne at h1
      cases hp : findInput fs dirs e.1 with
      | none => rw [hp] at h1; cases h1
      | some p =>
        simp only [hp] at h1
        obtain ⟨hr, hc⟩ := hf p ((C72_search_partial fs dirs e.1).1 p hp).1
        obtain ⟨c, hr⟩ := Option.isSome_iff_exists.1 hr
        obtain ⟨q, hc⟩ := Option.isSome_iff_exists.1 hc
        simp only [hr, hc] at h1
        split at h1 <;> cases h1

/-- **C106**, the part that holds: if the directories given with `-LDIRECTORY` exist, the files can be read and there are no linker scripts,
then a crash is a crash of the linker on the files named. What is missing: directories that do not exist
(`C106_directory_violated`), scripts that cannot be parsed. -/
theorem C106_crash_partial (hd : ∀ l, (dirs l).Perm l) (hr : Reads args ws) (hL : ∀ w ∈ ws, w.1 ≠ b!"-L" → b!"-L".isPrefixOf w.1 = true → (fs.canon (w.1.drop 2)).isSome)
    (hf : SoundFs fs) (hn : NoScripts fs (dirsOf fs.canon ws) (inputsOf ws))
    (h : run parseElf parseAr fs writable dirs sched parseFuel fuel rounds args = some .panic) :
    ∃ objects archives libs l, Gathers fs (dirsOf fs.canon ws) (inputsOf ws) objects archives libs ∧ Wanted ws objects archives libs l ∧
      Linker.link (worldOf parseElf parseAr fs (outputOf ws)) l sched rounds = some (.error .panic) := by
  unfold run at h
  cases hm : main fs dirs parseFuel fuel args with
  | running => rw [hm] at h; cases h
  | help => rw [hm] at h; cases h
  | badArgs e => rw [hm] at h; cases h
  | notFound lib => rw [hm] at h; cases h
  | panic =>
    exfalso
    rcases main_cases hm with ⟨_, h⟩ | ⟨e', h, _⟩ | ⟨app', ha', ⟨_, _, h⟩ | ⟨_, _, h, hs⟩ | ⟨found, hs, ⟨h, _⟩ | ⟨_, h⟩⟩⟩
    · obtain ⟨w, hw, h1, h2, h3⟩ := handleArgs_panic hr h
      have := hL w hw h1 h2
      rw [h3] at this
      cases this
    · cases h
    · exact search_panic hf h
    · cases h
    · cases h
    · have M := C67_meaning fs.canon args app' ha' ws hr
      have hmem : ∀ d, d ∈ dirs app'.searchPaths ↔ d ∈ dirsOf fs.canon ws := by
        intro d
        rw [(hd _).mem_iff, M.searchPaths, dirsOf, List.mem_filterMap]
      rw [M.inputs] at hs
      obtain ⟨_, _, _, _, _, _, _, h4⟩ := search_gathers hs fun e he p c hst hrd => hn e he p c (hst.congr hmem) hrd
      cases fuel with
      | zero => cases h
      | succ n =>
        rw [scriptLoop] at h
        simp only [h4, List.getLast?_nil] at h
        cases h
  | link app found =>
    simp only [hm] at h
    obtain ⟨o, a, l, hg, W⟩ := main_wanted hd hr hn hm
    have ho : app.output = outputOf ws := Path.of_inj W.output
    refine ⟨o, a, l, _, hg, W, ?_⟩
    cases hl : (toLinker app found).linkOn parseElf parseAr (diskOf fs writable) sched rounds with
    | none => rw [hl] at h; cases h
    | some r =>
      cases r with
      | err p k d => rw [hl] at h; cases h
      | ok d => rw [hl] at h; cases h
      | panic =>
        unfold Linker.linkOn at hl
        split at hl
        · simp only at hl
          rw [Disk.create_files, world_eq, ho] at hl
          split at hl
          · cases hl
          · rw [if_pos] at hl
            · cases hl
            · unfold Disk.create; split
              · rfl
              · exact if_pos rfl
          · cases hl
          · next e => exact e
        · cases hl

/-- **C107**, the part that holds: if the arguments can be read and every input is there, a command line that asks for help prints the help text and
changes nothing. What is missing: inputs that do not exist (`C107_help_violated`). -/
theorem C107_help_partial (hd : ∀ l, (dirs l).Perm l) (hr : Reads args ws) (hw : ∀ w ∈ ws, WordOk fs.canon w) (hh : HelpAsked ws) (hf : SoundFs fs)
    (hi : ∀ e ∈ inputsOf ws, ∃ p, Stands fs (dirsOf fs.canon ws) e.1 p) :
    run parseElf parseAr fs writable dirs sched parseFuel fuel rounds args = some (.success .help fs.read) := by
  obtain ⟨app, ha⟩ := (C67_accepted fs.canon args).2 ⟨ws, hr, hw⟩
  have M := C67_meaning fs.canon args app ha ws hr
  have hmem : ∀ d, d ∈ dirsOf fs.canon ws ↔ d ∈ dirs app.searchPaths := by
    intro d
    rw [(hd _).mem_iff, M.searchPaths, dirsOf, List.mem_filterMap]
  have : main fs dirs parseFuel fuel args = .help := by
    rcases main_cases (fs := fs) (dirs := dirs) (parseFuel := parseFuel) (fuel := fuel) (args := args) rfl with
      ⟨_, h⟩ | ⟨e', _, h⟩ | ⟨app', ha', ⟨_, _, h⟩ | ⟨_, _, _, hs⟩ | ⟨found, hs, ⟨h, _⟩ | ⟨h, _⟩⟩⟩
    · rw [h] at ha; cases ha
    · rw [h] at ha; cases ha
    · exact absurd h (search_panic hf)
    · rw [ha] at ha'
      cases ha'
      obtain ⟨b, hb, hp⟩ := search_notFound hs
      rw [M.inputs] at hb
      obtain ⟨p, hp'⟩ := hi _ hb
      exact absurd (hp'.congr hmem) (hp p)
    · exact h
    · rw [ha] at ha'
      cases ha'
      rw [M.help.2 hh] at h
      cases h
  unfold run
  rw [this]

/-- **C107** is violated: with the name of a file that does not exist, `--help` prints no help. -/
theorem C107_help_violated : ∃ fs : Fs, SoundFs fs ∧ ∀ dirs : List Bytes → List Bytes, (∀ l, (dirs l).Perm l) →
    ∃ files, run parseElf parseAr fs writable dirs sched parseFuel fuel rounds [b!"--help", b!"a.o"] = some (.failure (.notFound b!"a.o") files) := by
  refine ⟨textFs [], fun p h => ?_, fun dirs hd => ⟨(textFs []).read, ?_⟩⟩
  · cases h
  · have h0 : dirs [] = [] := List.Perm.eq_nil (hd [])
    have hm : main (textFs []) dirs parseFuel fuel [b!"--help", b!"a.o"] = .notFound b!"a.o" := by
      unfold main
      rw [show handleArgs (textFs []).canon [b!"--help", b!"a.o"] {} = .ok { help := true, inputs := [(b!"a.o", false)] } by decide +kernel]
      simp only [h0]
      rw [show searchForInputs (textFs []) [] [(b!"a.o", false)] {} = ({}, some (.notFound b!"a.o")) by decide +kernel]
    unfold run
    rw [hm]

/-- **C106** is violated: a directory given with `-LDIRECTORY` that does not exist crashes the program. -/
theorem C106_directory_violated : ∃ fs : Fs, SoundFs fs ∧
    ∀ dirs, run parseElf parseAr fs writable dirs sched parseFuel fuel rounds [b!"-L/missing", b!"a.o"] = some .panic := by
  refine ⟨{ textFs [] with canon := fun _ => none }, fun p h => ?_, fun dirs => ?_⟩
  · cases h
  · unfold run main
    rw [show handleArgs (fun _ => none) [b!"-L/missing", b!"a.o"] {} = .error .panic by decide +kernel]

/-! ### `-l` (C108) -/

theorem searchDirs_lib {fs : Fs} {n kind : Bytes} {dirs : List Bytes} {found : Option Bytes} {p : Bytes}
    (hp : ∀ d ∈ dirs, fs.isFile (join d n) = false) (h : searchDirs fs n kind dirs found = some p) :
    found = some p ∨ ∃ d ∈ dirs, p = join d (libName n kind) ∧ fs.isFile p = true := by
  induction dirs generalizing found with
  | nil => exact .inl h
  | cons d dirs ih =>
    rw [searchDirs] at h
    simp only [hp d List.mem_cons_self, Bool.false_eq_true, if_false] at h
    rcases ih (fun d hd => hp d (List.mem_cons_of_mem _ hd)) h with h | ⟨d', hd', h⟩
    · split at h
      · next hf => cases h; exact .inr ⟨d, List.mem_cons_self, rfl, hf⟩
      · exact .inl h
    · exact .inr ⟨d', List.mem_cons_of_mem _ hd', h⟩

/-- **C108**, the part that holds: if no file is called `NAME`, neither here nor in one of the directories, then `-lNAME` gives the linker the library
`libNAME.so` of one of the directories, or `libNAME.a` if no directory has `libNAME.so`. What is missing: files called `NAME`
(`C108_library_violated`). -/
theorem C108_library_partial (hd : ∀ l, (dirs l).Perm l) (hr : Reads args ws) {app : App} {found : Found}
    (h : main fs dirs parseFuel fuel args = .link app found) {n : Bytes} {b : Bool} (hi : (n, b) ∈ inputsOf ws)
    (h0 : fs.isFile n = false) (h1 : ∀ d ∈ dirsOf fs.canon ws, fs.isFile (join d n) = false) :
    ∃ p, ∃ d ∈ dirsOf fs.canon ws, Given fs parseFuel found p b ∧ (p = join d (b!"lib" ++ n ++ b!".so") ∨
      (p = join d (b!"lib" ++ n ++ b!".a") ∧ ∀ d' ∈ dirsOf fs.canon ws, fs.isFile (join d' (b!"lib" ++ n ++ b!".so")) = false)) := by
  obtain ⟨app0, ha, hall⟩ := C80_inputs_partial h
  have M := C67_meaning fs.canon args app0 ha ws hr
  have hmem : ∀ d, d ∈ dirs app0.searchPaths ↔ d ∈ dirsOf fs.canon ws := by
    intro d
    rw [(hd _).mem_iff, M.searchPaths, dirsOf, List.mem_filterMap]
  rw [M.inputs] at hall
  obtain ⟨p, hp, hg⟩ := hall _ hi
  have hso : libName n b!"so" = b!"lib" ++ n ++ b!".so" := by simp [libName]
  have har : libName n b!"a" = b!"lib" ++ n ++ b!".a" := by simp [libName]
  have hpl : ∀ d ∈ dirs app0.searchPaths, fs.isFile (join d n) = false := fun d hd => h1 d ((hmem d).1 hd)
  unfold findInput at hp
  simp only [h0, Bool.false_eq_true, if_false, Option.isSome_none] at hp
  cases hs : searchDirs fs n b!"so" (dirs app0.searchPaths) none with
  | some q =>
    rw [hs] at hp
    simp only [Option.isSome_some, if_true] at hp
    cases hp
    rcases searchDirs_lib hpl hs with h | ⟨d, hd, e, _⟩
    · cases h
    · exact ⟨p, d, (hmem d).1 hd, hg, .inl (e.trans (by rw [hso]))⟩
  | none =>
    rw [hs] at hp
    simp only [Option.isSome_none, Bool.false_eq_true, if_false] at hp
    rcases searchDirs_lib hpl hp with h | ⟨d, hd, e, _⟩
    · cases h
    · refine ⟨p, d, (hmem d).1 hd, hg, .inr ⟨e.trans (by rw [har]), fun d' hd' => ?_⟩⟩
      rw [← hso]
      exact ((searchDirs_none.1 hs).2 d' ((hmem d').2 hd')).2

/-- the first bytes of an ELF file of a type -/
def elfHead (ty : UInt8) : Bytes := [0x7f] ++ b!"ELF" ++ List.replicate 12 0 ++ [ty, 0]

/-- **C108** is violated: with a file `m` in the current directory, `-lm` is that file, not the library. -/
theorem C108_library_violated : ∃ fs : Fs, SoundFs fs ∧ fs.isFile b!"/lib/libm.so" = true ∧
    ∃ app, ∀ fuel, main fs id 100 (fuel + 1) [b!"-L/lib", b!"-lm"] = .link app { objects := [b!"m"] } := by
  let fs := textFs [(b!"m", elfHead 1), (b!"/lib/libm.so", elfHead 3)]
  refine ⟨fs, fun p h => ⟨h, rfl⟩, by decide +kernel, { searchPaths := [b!"/lib"] }, fun fuel => ?_⟩
  unfold main
  rw [show handleArgs fs.canon [b!"-L/lib", b!"-lm"] {} = .ok { searchPaths := [b!"/lib"], inputs := [(b!"m", false)] } by decide +kernel]
  simp only [id]
  rw [show searchForInputs fs [b!"/lib"] [(b!"m", false)] {} = ({ objects := [b!"m"] }, none) by decide +kernel]
  simp only [Bool.false_eq_true, if_false]
  rw [scriptLoop]
  rfl

/-! ### A world to run the program in -/

/-- the files: a program that calls `f` and `g`, a library with `f`, an archive with `g`, an object with `g`, and an executable -/
def procFs : Fs :=
  textFs [(b!"main.o", elfHead 1 ++ List.replicate 16 0x90), (b!"lib/libf.so", elfHead 3), (b!"lib/libg.a", b!"!<arch>" ++ [10] ++ List.replicate 10 0),
    (b!"g.o", elfHead 1 ++ List.replicate 8 0xc3), (b!"prog", elfHead 2), (b!"out", b!"old")]

/-- `mainElf` behind the header -/
def procMain : ElfFile :=
  { mainElf with
    sectionHeaders := [{}, { demoSh SHT_PROGBITS 6 16 16 with sh_name := 1, sh_offset := 18 }, { demoSh SHT_RELA 0 48 8 with sh_name := 7, sh_info := 1 }] }

/-- `memberElf` behind the header -/
def procG : ElfFile := { memberElf with sectionHeaders := [{}, { demoSh SHT_PROGBITS 6 8 8 with sh_name := 1, sh_offset := 18 }] }

/-- the parsers on these files -/
def procElfs : List (Bytes × ElfFile) :=
  [(elfHead 1 ++ List.replicate 16 0x90, procMain), (elfHead 3, libElf), (elfHead 1 ++ List.replicate 8 0xc3, procG), (elfHead 2, { libElf with dynsyms := [] })]

def procAr : Bytes → Option ArFile :=
  AMap.get? [(b!"!<arch>" ++ [10] ++ List.replicate 10 0, { index := [(b!"g", b!"g.o")], get := AMap.get? [(b!"g.o", elfHead 1 ++ List.replicate 8 0xc3)] })]

/-- what a run prints, and a test of the file `p` afterwards -/
def ends (out : Printed) (p : Bytes) (P : Bytes → Bool) : Option Exit → Bool
  | some (.success o files) => o == out && (files p).any P
  | _ => false

def fails (m : Report) (p : Bytes) (P : Bytes → Bool) : Option Exit → Bool
  | some (.failure m' files) => m' == m && (files p).any P
  | _ => false

def procRun (args : List Bytes) : Option Exit :=
  run (AMap.get? procElfs) procAr procFs (fun _ => true) id LinkSched.id 10 10 5 args

/-- runs that succeed, with a library and an archive, and with an object instead; a run with an undefined symbol; one with a missing input -/
example : ends (.executable b!"out") b!"out" (fun f => f.length > 0 && f != b!"old") (procRun [b!"-o", b!"out", b!"main.o", b!"-L", b!"lib", b!"-lf", b!"-lg"]) = true ∧
    ends (.executable b!"out") b!"out" (fun f => f.length > 0 && f != b!"old") (procRun [b!"-o", b!"out", b!"main.o", b!"-L", b!"lib", b!"-lf", b!"g.o"]) = true ∧
    fails (.link b!"out" (.undefined [b!"f"])) b!"out" (· == []) (procRun [b!"-o", b!"out", b!"main.o", b!"g.o"]) = true ∧
    fails (.notFound b!"x") b!"out" (· == b!"old") (procRun [b!"-o", b!"out", b!"main.o", b!"-lx"]) = true ∧
    ends .help b!"out" (· == b!"old") (procRun [b!"-o", b!"out", b!"main.o", b!"-h"]) = true := by
  refine ⟨?_, ?_, ?_, ?_, ?_⟩ <;> decide +kernel

/-- the words of the first of these command lines, and that it names no script -/
example : Reads [b!"-o", b!"out", b!"main.o", b!"-L", b!"lib", b!"-lf", b!"-lg"]
      [(b!"-o", some b!"out"), (b!"main.o", none), (b!"-L", some b!"lib"), (b!"-lf", none), (b!"-lg", none)] ∧
    ¬ HelpAsked [(b!"-o", some b!"out"), (b!"main.o", none), (b!"-L", some b!"lib"), (b!"-lf", none), (b!"-lg", none)] ∧
    NoScripts procFs [b!"lib"] [(b!"main.o", false), (b!"f", false), (b!"g", false)] ∧ SoundFs procFs ∧
    inputsOf [(b!"-o", some b!"out"), (b!"main.o", none), (b!"-L", some b!"lib"), (b!"-lf", none), (b!"-lg", none)] =
      [(b!"main.o", false), (b!"f", false), (b!"g", false)] := by
  refine ⟨.value (by decide) (.alone (by decide) (by decide) (.value (by decide) (.alone (by decide) (by decide) (.alone (by decide) (by decide) .nil)))),
    ?_, ?_, fun p h => ⟨h, rfl⟩, by decide +kernel⟩
  · rintro (h | h) <;> revert h <;> decide +kernel
  · intro e he p c hs hr
    have hin : ∀ x ∈ [b!"main.o", b!"f", b!"g"], ∀ p ∈ [x, join b!"lib" x, join b!"lib" (b!"lib" ++ x ++ b!".so"), join b!"lib" (b!"lib" ++ x ++ b!".a")],
        ∀ c ∈ procFs.read p, (decide (18 ≤ c.length) && (decide (c.take 4 = [0x7f] ++ b!"ELF") || decide (c.take 8 = b!"!<arch>" ++ [10]))) = true := by
      intro x hx p hp c hc
      have : ([b!"main.o", b!"f", b!"g"].all fun x =>
        [x, join b!"lib" x, join b!"lib" (b!"lib" ++ x ++ b!".so"), join b!"lib" (b!"lib" ++ x ++ b!".a")].all fun p =>
          (procFs.read p).all fun c => decide (18 ≤ c.length) && (decide (c.take 4 = [0x7f] ++ b!"ELF") || decide (c.take 8 = b!"!<arch>" ++ [10]))) = true := by
        decide +kernel
      rw [List.all_eq_true] at this
      have := this x hx
      rw [List.all_eq_true] at this
      have := this p hp
      rw [hc] at this
      exact this
    have h := hin e.1 (by
      simp only [List.mem_cons, List.not_mem_nil, or_false] at he
      rcases he with rfl | rfl | rfl <;> decide) p (by
      obtain ⟨_, rfl | ⟨d, hd, h⟩⟩ := hs
      · exact List.mem_cons_self
      · obtain rfl := List.mem_singleton.1 hd
        rcases h with rfl | rfl | rfl <;> simp) c hr
    simp only [Bool.and_eq_true, Bool.or_eq_true, decide_eq_true_eq] at h
    rcases h with ⟨h1, h2 | h2⟩
    · exact .inl ⟨h1, h2⟩
    · exact .inr ⟨h1, h2⟩

/-! ### Executables without an entry point (C109) -/

theorem of_ends {out : Printed} {p : Bytes} {P : Bytes → Bool} {r : Option Exit} (h : ends out p P r = true) :
    ∃ files file, r = some (.success out files) ∧ files p = some file ∧ P file = true := by
  unfold ends at h
  split at h
  · next o files =>
    simp only [Bool.and_eq_true, beq_iff_eq, Option.any_eq_true] at h
    obtain ⟨rfl, file, h1, h2⟩ := h
    exact ⟨files, file, rfl, h1, h2⟩
  · cases h

/-- **C109** is violated: linking an object without `_start` succeeds, and the executable starts at address 0. -/
theorem C109_entry_violated : ∃ files file, procRun [b!"g.o"] = some (.success (.executable b!"./out") files) ∧ files b!"./out" = some file ∧
    (Spec.decodeEhdr file).entry = 0 := by
  obtain ⟨files, file, h1, h2, h3⟩ := of_ends (show ends (.executable b!"./out") b!"./out" (fun f => (Spec.decodeEhdr f).entry == 0) (procRun [b!"g.o"]) = true by
    decide +kernel)
  exact ⟨files, file, h1, h2, by simpa using h3⟩

end Cli

namespace Linker
open Spec Writer

/-- **C109**, the part that holds: if a linked file mentions `_start`, then the output has one symbol of that name, and its value is the entry point.
What is missing: links without `_start` (`C109_entry_violated`). -/
theorem C109_entry_partial {env : Env} {l : Linker} {sched : LinkSched} {loaded : List Loaded} {log : List Call} {w w' : Writer} {file : Bytes}
    {secs : List Section} (hr : LinkRun env l sched loaded log w w' file secs) {s : Sym} (hm : MentionedIn loaded s b!"_start") :
    ∃ y, symbolsNamed file b!"_start" = [y] ∧ (decodeEhdr file).entry = y.value := by
  obtain ⟨sec, hm⟩ := hr.calls.mention_iff.1 hm
  exact (C57_entry hr.good).1 s sec hm

/-! ### ELF files that are no object files (C110) -/

theorem readAll_append {env : Env} (a b : List Path) : readAll env (a ++ b) =
    (readAll env a >>= fun x => readAll env b >>= fun y => .ok (x ++ y)) := by
  induction a with
  | nil =>
    show readAll env b = _
    cases h : readAll env b <;> rw [readAll, ok_bind] <;> rfl
  | cons p a ih =>
    simp only [List.cons_append, readAll, ih]
    cases orErr p .input (env.read p) with
    | error e => rfl
    | ok d =>
      cases readAll env a with
      | error e => rfl
      | ok x => cases readAll env b <;> rfl

/-- **C110** is violated: an input that is an ELF file but no object file, such as an executable, is ignored without a message: the link
is the same as without it. -/
theorem C110_ignored_violated {env : Env} {p : Path} {d : Bytes} {e : ElfFile} (hd : env.read p = some d) (he : env.parseElf d = some e)
    (ho : e.isObjectFile = false) (l : Linker) (a b : List Path) (sched : LinkSched) (fuel : Nat) :
    link env { l with objects := a ++ p :: b } sched fuel = link env { l with objects := a ++ b } sched fuel := by
  have hload : ∀ w, loadAll env { l with objects := a ++ p :: b } w = loadAll env { l with objects := a ++ b } w := by
    intro w
    unfold loadAll
    simp only [readAll_append, readAll]
    cases readAll env a with
    | error e => rfl
    | ok x =>
      simp only [ok_bind, hd, orErr]
      cases readAll env b with
      | error e => rfl
      | ok y =>
        simp only [ok_bind]
        rw [foldM'_append, foldM'_append]
        cases foldM' (loadObjects env) ([], w) x with
        | error e => rfl
        | ok st =>
          simp only [ok_bind]
          rw [foldM'_cons]
          have : loadObjects env st (p, d) = .ok st := by
            simp only [loadObjects, toElfObject, he, orErr, ok_bind, ho]
            rfl
          rw [this]
          rfl
  have hres : ∀ fuel round u w, resolveLoop env { l with objects := a ++ p :: b } sched fuel round u w =
      resolveLoop env { l with objects := a ++ b } sched fuel round u w := by
    intro fuel
    induction fuel with
    | zero => intro round u w; rfl
    | succ n ih =>
      intro round u w
      rw [resolveLoop, resolveLoop]
      simp only [ih]
      rfl
  unfold link
  simp only [hload, hres]
  rfl

/-- **C110**, the part that holds: every input given as an object is read and parsed, and if it is an object file, it is linked. What is
missing: other ELF files (`C110_ignored_violated`). -/
theorem C110_linked_partial {env : Env} {l : Linker} {sched : LinkSched} {loaded : List Loaded} {log : List Call} {w w' : Writer} {file : Bytes}
    {secs : List Section} (hr : LinkRun env l sched loaded log w w' file secs) {p : Path} (hp : p ∈ l.objects) :
    ∃ d e, env.read p = some d ∧ env.parseElf d = some e ∧ (e.isObjectFile = true → ∃ x ∈ loaded, x.path = p ∧ x.data = d ∧ x.elf = e) := by
  obtain ⟨d, e, hd, he⟩ := hr.calls.readable p hp
  refine ⟨d, e, hd, he, fun ho => ?_⟩
  obtain ⟨ms, hl, _⟩ := hr.calls.objects
  obtain ⟨i, hi⟩ := List.mem_iff_getElem?.1 hp
  refine ⟨⟨.object i, p, d, e⟩, ?_, rfl, rfl, rfl⟩
  rw [hl, List.mem_append]
  left
  unfold objectsOf
  rw [List.mem_filterMap]
  refine ⟨(p, i), List.mem_zipIdx_iff_getElem?.2 hi, ?_⟩
  simp [hd, he, ho]

end Linker

namespace Cli

/-- an executable among the inputs changes nothing -/
example : ends (.executable b!"out") b!"out" (fun f => f.length > 0 && f != b!"old")
    (procRun [b!"-o", b!"out", b!"prog", b!"main.o", b!"-L", b!"lib", b!"-lf", b!"-lg"]) = true := by decide +kernel

end Cli
end Dld
