import Verif.Spec.Repeat
import Verif.Props.Process
import Verif.Props.Rename
import Verif.Props.Rerun
/-! # C150: a second run of the same command line -/
namespace Dld.Cli

variable {parseElf : Bytes → Option ElfFile} {parseAr : Bytes → Option ArFile} {fs fs' : Fs} {writable writable' : Bytes → Bool}
  {dirs : List Bytes → List Bytes} {sched : LinkSched} {parseFuel fuel rounds : Nat} {args : List Bytes} {ws : List Word}

/-- a link reads its inputs only -/
theorem link_reads {env env' : Env} {l : Linker} (hv : sched.Valid)
    (hr : ∀ p ∈ l.objects ++ l.archives ++ l.options.sharedLibs.map (·.1), env'.read p = env.read p)
    (he : env'.parseElf = env.parseElf) (ha : env'.parseAr = env.parseAr) : Linker.link env' l sched rounds = Linker.link env l sched rounds := by
  have e : l.ren id = l := by
    obtain ⟨⟨_, _, _, _, _, _, _⟩, _, _⟩ := l
    simp [Linker.ren]
  have := Linker.C127_moved (f := id) (env := env) (env' := env') (l := l) (sched := sched) (sched' := sched)
    ⟨hr, he, ha, fun _ _ => rfl, rfl⟩ ⟨rfl, rfl, rfl, rfl, by rw [List.map_id, List.map_id]⟩ hv rounds
  rw [e] at this
  rw [this]
  cases h : Linker.link env l sched rounds with
  | none => rfl
  | some x =>
    cases x with
    | ok b => rfl
    | error e =>
      cases e with
      | panic => rfl
      | err p k => cases k <;> rfl

theorem applyWord_congr {canon canon' : Bytes → Option Bytes} {app : App} {w : Word} (h : ∀ v, w = (b!"-L" ++ v, none) → canon' v = canon v)
    (hw : w.2 = none ∨ w.1 ∈ valueOpts ∨ w.1 = b!"--build-id") : applyWord canon' app w = applyWord canon app w := by
  obtain ⟨a, o⟩ := w
  have hs : a ∉ valueOpts → a ≠ b!"--build-id" → special canon' a app = special canon a app := by
    intro h1 h2
    obtain rfl : o = none := by
      rcases hw with hw | hw | hw
      · exact hw
      · exact absurd hw h1
      · exact absurd hw h2
    unfold special
    simp only [stripPrefix_eq]
    by_cases c : b!"-L".isPrefixOf a = true
    · rw [if_pos c]
      dsimp only
      rw [h (a.drop b!"-L".length) (by
        obtain ⟨t, rfl⟩ := List.isPrefixOf_iff_prefix.1 c
        rfl)]
    · rw [if_neg c]
  unfold applyWord
  dsimp only
  by_cases c1 : a = b!"--build-id"
  · rw [if_pos c1, if_pos c1]
  by_cases c : a ∈ valueOpts
  · simp only [valueOpts, List.mem_cons, List.not_mem_nil, or_false] at c
    rcases c with rfl | rfl | rfl | rfl | rfl | rfl <;> rfl
  · rw [hs c c1]

theorem words_shape (hr : Reads args ws) : ∀ w ∈ ws, w.2 = none ∨ w.1 ∈ valueOpts ∨ w.1 = b!"--build-id" := by
  induction hr with
  | nil => exact fun _ h => nomatch h
  | value ho _ ih => exact fun w hw => (List.mem_cons.1 hw).elim (fun e => .inr (.inl (e ▸ ho))) (ih w)
  | buildId _ _ ih => exact fun w hw => (List.mem_cons.1 hw).elim (fun e => .inr (.inr (e ▸ rfl))) (ih w)
  | buildIdAlone _ _ ih => exact fun w hw => (List.mem_cons.1 hw).elim (fun e => .inl (e ▸ rfl)) (ih w)
  | alone _ _ _ ih => exact fun w hw => (List.mem_cons.1 hw).elim (fun e => .inl (e ▸ rfl)) (ih w)

theorem foldM'_congr {ε σ α : Type} {f g : σ → α → Except ε σ} : ∀ {l : List α} (s : σ), (∀ x ∈ l, ∀ s, f s x = g s x) → foldM' f s l = foldM' g s l
  | [], _, _ => rfl
  | x :: l, s, h => by
    rw [foldM'_cons, foldM'_cons, h x List.mem_cons_self]
    cases g s x with
    | error e => rfl
    | ok s => exact foldM'_congr s fun y hy => h y (List.mem_cons_of_mem _ hy)

theorem searchDirs_congr {lib kind : Bytes} : ∀ {ds : List Bytes} {found : Option Bytes},
    (∀ d ∈ ds, fs'.isFile (join d lib) = fs.isFile (join d lib) ∧ fs'.isFile (join d (libName lib kind)) = fs.isFile (join d (libName lib kind))) →
    searchDirs fs' lib kind ds found = searchDirs fs lib kind ds found
  | [], _, _ => rfl
  | d :: ds, found, h => by
    rw [searchDirs, searchDirs]
    dsimp only
    rw [(h d List.mem_cons_self).1, (h d List.mem_cons_self).2, searchDirs_congr fun d hd => h d (List.mem_cons_of_mem _ hd)]

theorem findInput_congr {ds : List Bytes} {n : Bytes} (h : ∀ p, Tried ds n p → fs'.isFile p = fs.isFile p) : findInput fs' ds n = findInput fs ds n := by
  unfold findInput
  rw [h n (.inl rfl), searchDirs_congr (fs := fs) (fs' := fs') fun d hd => ⟨h _ (.inr ⟨d, hd, .inl rfl⟩), h _ (.inr ⟨d, hd, .inr (.inl (by simp [libName]))⟩)⟩,
    searchDirs_congr (fs := fs) (fs' := fs') fun d hd => ⟨h _ (.inr ⟨d, hd, .inl rfl⟩), h _ (.inr ⟨d, hd, .inr (.inr (by simp [libName]))⟩)⟩]

theorem findInput_tried {ds : List Bytes} {n p : Bytes} (h : findInput fs ds n = some p) : Tried ds n p :=
  (stands_iff.2 ((C72_search_partial fs ds n).1 p h)).2

theorem search_congr {ds : List Bytes} : ∀ {es : List (Bytes × Bool)} {acc : Found},
    (∀ e ∈ es, ∀ p, Tried ds e.1 p → fs'.isFile p = fs.isFile p ∧ fs'.read p = fs.read p ∧ fs'.canon p = fs.canon p) →
    searchForInputs fs' ds es acc = searchForInputs fs ds es acc
  | [], _, _ => rfl
  | e :: es, acc, h => by
    have h1 : searchOne fs' ds acc e = searchOne fs ds acc e := by
      unfold searchOne
      rw [findInput_congr fun p hp => (h e List.mem_cons_self p hp).1]
      cases hf : findInput fs ds e.1 with
      | none => rfl
      | some p =>
        obtain ⟨_, h2, h3⟩ := h e List.mem_cons_self p (findInput_tried hf)
        dsimp only
        rw [h2, h3]
    rw [searchForInputs, searchForInputs, h1]
    cases searchOne fs ds acc e with
    | error err => rfl
    | ok acc => exact search_congr fun x hx => h x (List.mem_cons_of_mem _ hx)

/-- the files the linker is handed are tried for the inputs, or what these are called -/
theorem gathers_tried {ds : List Bytes} {es : List (Bytes × Bool)} {o a : List Bytes} {l : List (Bytes × Bool)} (h : Gathers fs ds es o a l) :
    (∀ q, q ∈ o ∨ q ∈ a → ∃ e ∈ es, ∃ p, Tried ds e.1 p ∧ fs.canon p = some q) ∧ ∀ x ∈ l, ∃ e ∈ es, Tried ds e.1 x.1 := by
  induction h with
  | nil => exact ⟨fun q h => h.elim (fun h => nomatch h) (fun h => nomatch h), fun _ h => nomatch h⟩
  | @object n b p c q es o a l h1 h2 h3 h4 h5 _ ih =>
    refine ⟨fun q' hq => ?_, fun x hx => ?_⟩
    · rcases hq with hq | hq
      · rcases List.mem_cons.1 hq with rfl | hq
        · exact ⟨_, List.mem_cons_self, p, h1.2, h5⟩
        · obtain ⟨e, he, r⟩ := ih.1 q' (.inl hq)
          exact ⟨e, List.mem_cons_of_mem _ he, r⟩
      · obtain ⟨e, he, r⟩ := ih.1 q' (.inr hq)
        exact ⟨e, List.mem_cons_of_mem _ he, r⟩
    · obtain ⟨e, he, r⟩ := ih.2 x hx
      exact ⟨e, List.mem_cons_of_mem _ he, r⟩
  | @archive n b p c q es o a l h1 h2 h3 h5 _ ih =>
    refine ⟨fun q' hq => ?_, fun x hx => ?_⟩
    · rcases hq with hq | hq
      · obtain ⟨e, he, r⟩ := ih.1 q' (.inl hq)
        exact ⟨e, List.mem_cons_of_mem _ he, r⟩
      · rcases List.mem_cons.1 hq with rfl | hq
        · exact ⟨_, List.mem_cons_self, p, h1.2, h5⟩
        · obtain ⟨e, he, r⟩ := ih.1 q' (.inr hq)
          exact ⟨e, List.mem_cons_of_mem _ he, r⟩
    · obtain ⟨e, he, r⟩ := ih.2 x hx
      exact ⟨e, List.mem_cons_of_mem _ he, r⟩
  | @lib n b p c es o a l h1 h2 h3 h4 _ ih =>
    refine ⟨fun q' hq => ?_, fun x hx => ?_⟩
    · obtain ⟨e, he, r⟩ := ih.1 q' hq
      exact ⟨e, List.mem_cons_of_mem _ he, r⟩
    · rcases List.mem_cons.1 hx with rfl | hx
      · exact ⟨_, List.mem_cons_self, h1.2⟩
      · obtain ⟨e, he, r⟩ := ih.2 x hx
        exact ⟨e, List.mem_cons_of_mem _ he, r⟩

/-- the linker is handed the same -/
theorem main_congr (hd : ∀ l, (dirs l).Perm l) (hr : Reads args ws) (hn : NoScripts fs (dirsOf fs.canon ws) (inputsOf ws)) (hs : SameInputs ws fs fs') :
    main fs' dirs parseFuel fuel args = main fs dirs parseFuel fuel args := by
  unfold main
  rw [handleArgs_words hr, handleArgs_words hr]
  have e : foldM' (applyWord fs'.canon) {} ws = foldM' (applyWord fs.canon) {} ws :=
    foldM'_congr _ fun w hw app => applyWord_congr (fun v hv => hs.dirs v (hv ▸ hw)) (words_shape hr w hw)
  rw [e]
  cases hf : foldM' (applyWord fs.canon) {} ws with
  | error e => cases e <;> rfl
  | ok app =>
    have M : Meets fs.canon ws app := C67_meaning fs.canon args app (by rw [handleArgs_words hr]; exact hf) ws hr
    have hmem : ∀ d, d ∈ dirs app.searchPaths ↔ d ∈ dirsOf fs.canon ws := by
      intro d
      rw [(hd _).mem_iff, M.searchPaths, dirsOf, List.mem_filterMap]
    have ht : ∀ {n p : Bytes}, Tried (dirs app.searchPaths) n p → Tried (dirsOf fs.canon ws) n p := by
      rintro n p (h | ⟨d, h1, h2⟩)
      · exact .inl h
      · exact .inr ⟨d, (hmem d).1 h1, h2⟩
    dsimp only
    rw [M.inputs, search_congr fun e he p hp => ⟨hs.isFile e he p (ht hp), hs.read e he p (ht hp), hs.canon e he p (ht hp)⟩]
    cases hg : searchForInputs fs (dirs app.searchPaths) (inputsOf ws) {} with
    | mk found err =>
      cases err with
      | some err => cases err <;> rfl
      | none =>
        obtain ⟨o, a, l, _, _, _, _, h4⟩ := search_gathers hg fun e he p c hst hrd => hn e he p c (hst.congr hmem) hrd
        dsimp only
        cases fuel with
        | zero => rfl
        | succ k =>
          rw [scriptLoop, scriptLoop]
          simp only [h4, List.getLast?_nil]

/-- what `File::create` leaves at the paths -/
theorem create_files {d : Disk} {o : Path} : (d.create o).files = fun q => if q = o then some [] else d.files q := by
  unfold Disk.create
  split <;> rfl

/-- the file system after a run that has written `out` -/
def afterFs (fs : Fs) (out : Bytes) (files : Bytes → Option Bytes) : Fs :=
  { read := files, isFile := fun p => if p = out then true else fs.isFile p, canon := fs.canon }

theorem after_fs (fs : Fs) (out : Bytes) (files : Bytes → Option Bytes) : After fs out files (afterFs fs out files) := ⟨fun _ => rfl, fun _ => rfl, fun _ _ => rfl⟩

/-- the command line that makes the program `f` with the library of the same name -/
def twiceArgs : List Bytes := [b!"-o", b!"f", b!"main.o", b!"-L", b!"lib", b!"-lf", b!"-lg"]

/-- **C150** is violated: a program that is called like a library it uses is linked once; the second run takes the program for the library, which it has
just emptied, and fails. -/
theorem C150_again_violated : ∃ files files', procRun twiceArgs = some (.success (.executable b!"f") files) ∧
    Reads twiceArgs [(b!"-o", some b!"f"), (b!"main.o", none), (b!"-L", some b!"lib"), (b!"-lf", none), (b!"-lg", none)] ∧
    ∃ fs', After procFs b!"f" files fs' ∧
      run (AMap.get? procElfs) procAr fs' (fun _ => true) id LinkSched.id 10 10 5 twiceArgs = some (.failure (.link b!"f" .input) files') ∧
      files' b!"f" = some [] := by
  have h : (match procRun twiceArgs with
    | some (.success (.executable p) files) => p == b!"f" && fails (.link b!"f" .input) b!"f" (· == [])
      (run (AMap.get? procElfs) procAr (afterFs procFs b!"f" files) (fun _ => true) id LinkSched.id 10 10 5 twiceArgs)
    | _ => false) = true := by decide +kernel
  split at h
  · next p files hr =>
    simp only [Bool.and_eq_true, beq_iff_eq] at h
    obtain ⟨rfl, h⟩ := h
    unfold fails at h
    split at h
    · next m files' hr' =>
      simp only [Bool.and_eq_true, beq_iff_eq, Option.any_eq_true] at h
      obtain ⟨rfl, file, h1, rfl⟩ := h
      exact ⟨files, files', hr, .value (by decide) (.alone (by decide) (by decide) (.value (by decide) (.alone (by decide) (by decide)
        (.alone (by decide) (by decide) .nil)))), _, after_fs _ _ _, hr', h1⟩
    · cases h
  · cases h

/-- **C150, the part that holds** (what a run depends on): runs of one command line, without linker scripts, in file systems that agree on the paths that
are tried for the inputs end in the same way, with the same message or the same executable. -/
theorem C150_inputs_partial (hv : sched.Valid) (hd : ∀ l, (dirs l).Perm l) (hr : Reads args ws) (hn : NoScripts fs (dirsOf fs.canon ws) (inputsOf ws))
    (hs : SameInputs ws fs fs') (hw : writable' (outputOf ws) = writable (outputOf ws)) :
    SameExit (outputOf ws) (run parseElf parseAr fs writable dirs sched parseFuel fuel rounds args)
      (run parseElf parseAr fs' writable' dirs sched parseFuel fuel rounds args) := by
  unfold run
  rw [main_congr hd hr hn hs]
  cases hm : main fs dirs parseFuel fuel args with
  | running => trivial
  | panic => trivial
  | help => exact ⟨rfl, fun h => nomatch h⟩
  | badArgs e => rfl
  | notFound lib => rfl
  | link app found =>
    obtain ⟨o, a, l, hg, W⟩ := main_wanted hd hr hn hm
    have ho : app.output = outputOf ws := Path.of_inj W.output
    have hin := gathers_tried hg
    dsimp only [Linker.linkOn]
    have w1 : (diskOf fs writable).writable (toLinker app found).options.output = writable (outputOf ws) := by rw [W.output]; rfl
    have w2 : (diskOf fs' writable').writable (toLinker app found).options.output = writable (outputOf ws) := by rw [W.output, ← hw]; rfl
    rw [w1, w2]
    cases hwr : writable (outputOf ws) with
    | false => rfl
    | true =>
      simp only [if_true]
      have o1 : ((diskOf fs writable).create (toLinker app found).options.output).owned (toLinker app found).options.output = true :=
        ((diskOf fs writable).create_owned _).2 (.inr rfl)
      have o2 : ((diskOf fs' writable').create (toLinker app found).options.output).owned (toLinker app found).options.output = true :=
        ((diskOf fs' writable').create_owned _).2 (.inr rfl)
      have hlink : Linker.link { read := ((diskOf fs' writable').create (toLinker app found).options.output).files, parseElf, parseAr } (toLinker app found) sched rounds =
          Linker.link { read := ((diskOf fs writable).create (toLinker app found).options.output).files, parseElf, parseAr } (toLinker app found) sched rounds := by
        refine link_reads hv (fun p hp => ?_) rfl rfl
        show ((diskOf fs' writable').create _).files p = ((diskOf fs writable).create _).files p
        rw [create_files, create_files]
        dsimp only
        split
        · rfl
        · show fs'.read p.full = fs.read p.full
          rw [List.mem_append, List.mem_append] at hp
          have real : ∀ q, q ∈ o ∨ q ∈ a → fs'.read q = fs.read q := by
            intro q hq
            obtain ⟨e, he, p, h1, h2⟩ := hin.1 q hq
            exact hs.real e he p h1 q h2
          rcases hp with (hp | hp) | hp
          · rw [W.objects, List.mem_map] at hp
            obtain ⟨q, hq, rfl⟩ := hp
            exact real q (.inl hq)
          · rw [W.archives, List.mem_map] at hp
            obtain ⟨q, hq, rfl⟩ := hp
            exact real q (.inr hq)
          · rw [W.libs, List.map_map, List.mem_map] at hp
            obtain ⟨x, hx, rfl⟩ := hp
            obtain ⟨e, he, h1⟩ := hin.2 x hx
            exact hs.read e he _ h1
      rw [hlink]
      cases hl : Linker.link { read := ((diskOf fs writable).create (toLinker app found).options.output).files, parseElf, parseAr } (toLinker app found) sched rounds with
      | none => trivial
      | some r =>
        cases r with
        | error f =>
          cases f with
          | panic => trivial
          | err p k => rfl
        | ok file =>
          dsimp only
          rw [o1, o2, if_pos rfl, if_pos rfl]
          refine ⟨rfl, fun _ => ?_⟩
          show (if _ then _ else _) = (if _ then _ else _)
          rw [W.output, if_pos rfl, if_pos rfl]

/-- **C150, the part that holds**: when the output is none of the paths that are tried for the inputs, nor what such a path leads to, a second run of the
command line succeeds like the first and leaves the same files. Missing: outputs that are such a path (`C150_again_violated`). -/
theorem C150_again_partial (hv : sched.Valid) (hd : ∀ l, (dirs l).Perm l) (hr : Reads args ws) (hh : ¬ HelpAsked ws)
    (hn : NoScripts fs (dirsOf fs.canon ws) (inputsOf ws)) (hl : ∀ v, (b!"-L" ++ v, none) ∈ ws → v ≠ outputOf ws)
    (ho : ∀ e ∈ inputsOf ws, ∀ p, Tried (dirsOf fs.canon ws) e.1 p → p ≠ outputOf ws ∧ fs.canon p ≠ some (outputOf ws))
    {out : Printed} {files : Bytes → Option Bytes}
    (h : run parseElf parseAr fs writable dirs sched parseFuel fuel rounds args = some (.success out files)) (ha : After fs (outputOf ws) files fs') :
    ∃ files', run parseElf parseAr fs' writable dirs sched parseFuel fuel rounds args = some (.success out files') ∧ files' = files := by
  obtain ⟨rfl, h1, _⟩ := C104_output hv hd hr hh hn h
  have hs : SameInputs ws fs fs' := {
    dirs := fun v hv => ha.canon v (hl v hv)
    isFile := fun e he p hp => by rw [ha.isFile, if_neg (ho e he p hp).1]
    read := fun e he p hp => by rw [ha.read, h1 p (ho e he p hp).1]
    canon := fun e he p hp => ha.canon p (ho e he p hp).1
    real := fun e he p hp q hq => by rw [ha.read, h1 q fun e' => (ho e he p hp).2 (by rw [hq, e'])] }
  have key := C150_inputs_partial (parseElf := parseElf) (parseAr := parseAr) (writable := writable) (writable' := writable) (dirs := dirs) (sched := sched)
    (parseFuel := parseFuel) (fuel := fuel) (rounds := rounds) hv hd hr hn hs rfl
  rw [h] at key
  cases hr' : run parseElf parseAr fs' writable dirs sched parseFuel fuel rounds args with
  | none => rw [hr'] at key; exact key.elim
  | some x =>
    rw [hr'] at key
    cases x with
    | panic => exact key.elim
    | failure m f => exact key.elim
    | success o' files' =>
      obtain ⟨rfl, k⟩ := key
      refine ⟨files', rfl, funext fun p => ?_⟩
      by_cases hp : p = outputOf ws
      · rw [hp]; exact k rfl
      · obtain ⟨e, _⟩ | ⟨output, _, _, e, _, _, _, _, k', _⟩ := C104_success hv hr'
        · cases e
        · cases e
          rw [k' p hp, ha.read]

/-- the command line of the demonstration -/
def outArgs : List Bytes := [b!"-o", b!"out", b!"main.o", b!"-L", b!"lib", b!"-lf", b!"-lg"]

/-- In the world of the demonstration the second run succeeds, and leaves the same executable. -/
example : ∃ files, procRun outArgs = some (.success (.executable b!"out") files) ∧ ∀ fs', After procFs b!"out" files fs' →
    run (AMap.get? procElfs) procAr fs' (fun _ => true) id LinkSched.id 10 10 5 outArgs = some (.success (.executable b!"out") files) := by
  obtain ⟨files, _, h1, _, _⟩ := of_ends (show ends (.executable b!"out") b!"out" (fun _ => true) (procRun outArgs) = true by decide +kernel)
  refine ⟨files, h1, fun fs' ha => ?_⟩
  have hr : Reads outArgs [(b!"-o", some b!"out"), (b!"main.o", none), (b!"-L", some b!"lib"), (b!"-lf", none), (b!"-lg", none)] :=
    .value (by decide) (.alone (by decide) (by decide) (.value (by decide) (.alone (by decide) (by decide) (.alone (by decide) (by decide) .nil))))
  have hin : ∀ e ∈ [(b!"main.o", false), (b!"f", false), (b!"g", false)], ∀ p, Tried [b!"lib"] e.1 p →
      p ∈ [e.1, join b!"lib" e.1, join b!"lib" (b!"lib" ++ e.1 ++ b!".so"), join b!"lib" (b!"lib" ++ e.1 ++ b!".a")] := by
    rintro e - p (rfl | ⟨d, hd, h⟩)
    · exact List.mem_cons_self
    · obtain rfl := List.mem_singleton.1 hd
      rcases h with rfl | rfl | rfl <;> simp
  obtain ⟨files', k1, rfl⟩ := C150_again_partial LinkSched.id_valid (fun _ => .rfl) hr (by rintro (h | h) <;> revert h <;> decide +kernel)
    (fun e he p c hs hc => by
      have key : ([(b!"main.o", false), (b!"f", false), (b!"g", false)].all fun e =>
        [e.1, join b!"lib" e.1, join b!"lib" (b!"lib" ++ e.1 ++ b!".so"), join b!"lib" (b!"lib" ++ e.1 ++ b!".a")].all fun p =>
          (procFs.read p).all fun c => decide (18 ≤ c.length) && (decide (c.take 4 = [0x7f] ++ b!"ELF") || decide (c.take 8 = b!"!<arch>" ++ [10]))) = true := by
        decide +kernel
      rw [List.all_eq_true] at key
      have key := key e he
      rw [List.all_eq_true] at key
      have key := key p (hin e he p hs.2)
      rw [hc] at key
      simp only [Option.all_some, Bool.and_eq_true, Bool.or_eq_true, decide_eq_true_eq] at key
      exact key.2.imp (fun h => ⟨key.1, h⟩) fun h => ⟨key.1, h⟩)
    (fun v hv => by
      simp only [List.mem_cons, List.not_mem_nil, or_false, Prod.mk.injEq] at hv
      rcases hv with h | h | h | h | h
      · exact nomatch h.2
      · exact absurd (congrArg (·[0]?) h.1) (by simp)
      · exact nomatch h.2
      · exact absurd (congrArg (·[1]?) h.1) (by simp)
      · exact absurd (congrArg (·[1]?) h.1) (by simp))
    (fun e he p hp => by
      have key : ([(b!"main.o", false), (b!"f", false), (b!"g", false)].all fun e =>
        [e.1, join b!"lib" e.1, join b!"lib" (b!"lib" ++ e.1 ++ b!".so"), join b!"lib" (b!"lib" ++ e.1 ++ b!".a")].all fun p =>
          p != b!"out" && procFs.canon p != some b!"out") = true := by decide +kernel
      rw [List.all_eq_true] at key
      have key := key e he
      rw [List.all_eq_true] at key
      have key := key p (hin e he p hp)
      simp only [Bool.and_eq_true, bne_iff_ne] at key
      exact key) h1 ha
  exact k1

end Dld.Cli
