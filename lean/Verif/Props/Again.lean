import Verif.Props.Process
/-! # C149: an archive that is named twice -/
namespace Dld

namespace Cli

variable {parseElf : Bytes → Option ElfFile} {parseAr : Bytes → Option ArFile} {fs : Fs} {writable : Bytes → Bool} {dirs : List Bytes → List Bytes}
  {sched : LinkSched} {parseFuel fuel rounds : Nat} {args : List Bytes} {ws : List Word} {canon : Bytes → Option Bytes}

theorem applyWord_input {app : App} {a n : Bytes} (h : inputOf (a, none) = some n) :
    applyWord canon app (a, none) = .ok { app with inputs := app.inputs ++ [(n, app.asNeeded)] } := by
  have c1 : a ≠ b!"--build-id" := by rintro rfl; revert h; decide +revert
  have c2 : a ≠ b!"-m" := by rintro rfl; revert h; decide +revert
  have c3 : a ≠ b!"-o" := by rintro rfl; revert h; decide +revert
  have c4 : a ≠ b!"--eh-frame-hdr" := by rintro rfl; revert h; decide +revert
  have c5 : ¬ (a = b!"--help" ∨ a = b!"-h") := by rintro (rfl | rfl) <;> revert h <;> decide +revert
  have c6 : a ≠ b!"-dynamic-linker" := by rintro rfl; revert h; decide +revert
  have c7 : a ≠ b!"-L" := by rintro rfl; revert h; decide +revert
  have c8 : a ≠ b!"-l" := by rintro rfl; revert h; decide +revert
  have c9 : a ≠ b!"-z" := by rintro rfl; revert h; decide +revert
  have c10 : a ≠ b!"--as-needed" := by rintro rfl; revert h; decide +revert
  have c11 : a ≠ b!"--no-as-needed" := by rintro rfl; revert h; decide +revert
  have c12 : ¬ (a = b!"--start-group" ∨ a = b!"--end-group") := by rintro (rfl | rfl) <;> revert h <;> decide +revert
  unfold inputOf at h
  rw [if_neg c8] at h
  by_cases c : a ∈ valueOpts ∨ a ∈ flagOpts ∨ a = b!"--build-id" ∨ b!"-L".isPrefixOf a = true ∨ b!"--hash-style=".isPrefixOf a = true
  · rw [if_pos c] at h; cases h
  rw [if_neg c] at h
  simp only [not_or] at c
  obtain ⟨_, _, _, d1, d2⟩ := c
  unfold applyWord
  rw [if_neg c1, if_neg c2, if_neg c3, if_neg c4, if_neg c5, if_neg c6, if_neg c7, if_neg c8, if_neg c9, if_neg c10, if_neg c11, if_neg c12]
  unfold special
  simp only [stripPrefix_eq]
  rw [if_neg d1]
  dsimp only
  by_cases d3 : b!"-l".isPrefixOf a = true
  · rw [if_pos d3] at h ⊢
    cases h
    rfl
  · rw [if_neg d3] at h ⊢
    dsimp only
    rw [if_neg d2]
    cases h
    rfl

theorem searchForInputs_snoc {ds : List Bytes} {e : Bytes × Bool} : ∀ {es : List (Bytes × Bool)} {acc : Found},
    searchForInputs fs ds (es ++ [e]) acc = match searchForInputs fs ds es acc with
      | (f, none) => searchForInputs fs ds [e] f
      | (f, some err) => (f, some err)
  | [], acc => rfl
  | x :: es, acc => by
    rw [List.cons_append, searchForInputs, searchForInputs]
    cases searchOne fs ds acc x with
    | ok acc => exact searchForInputs_snoc
    | error err => rfl

theorem searchOne_mono {ds : List Bytes} {acc acc' : Found} {e : Bytes × Bool} (h : searchOne fs ds acc e = .ok acc') : ∀ q ∈ acc.archives, q ∈ acc'.archives := by
  intro q hq
  obtain ⟨p, c, _, _, ⟨_, _, _, _, rfl⟩ | ⟨_, _, _, rfl⟩ | ⟨_, _, rfl⟩ | ⟨_, _, rfl⟩⟩ := searchOne_ok h
  · exact hq
  · exact mem_setInsert.2 (.inl hq)
  · exact hq
  · exact hq

theorem search_mono {ds : List Bytes} : ∀ {es : List (Bytes × Bool)} {acc found : Found}, searchForInputs fs ds es acc = (found, none) →
    ∀ q ∈ acc.archives, q ∈ found.archives
  | [], _, _, h, q, hq => by cases h; exact hq
  | x :: es, acc, found, h, q, hq => by
    rw [searchForInputs] at h
    cases h1 : searchOne fs ds acc x with
    | error err => rw [h1] at h; cases h
    | ok acc' => rw [h1] at h; exact search_mono h q (searchOne_mono h1 q hq)

/-- an archive that has been found is found again without effect -/
theorem search_again {ds : List Bytes} {n : Bytes} (har : ∀ p c, findInput fs ds n = some p → fs.read p = some c → IsAr c) (b : Bool) :
    ∀ {es : List (Bytes × Bool)} {acc found : Found}, searchForInputs fs ds es acc = (found, none) → n ∈ es.map (·.1) → searchOne fs ds found (n, b) = .ok found
  | [], _, _, _, hm => by cases hm
  | (m, b') :: es, acc, found, h, hm => by
    rw [searchForInputs] at h
    cases h1 : searchOne fs ds acc (m, b') with
    | error err => rw [h1] at h; cases h
    | ok acc' =>
      rw [h1] at h
      rcases List.mem_cons.1 hm with hm | hm
      · have hm : n = m := hm
        subst hm
        unfold searchOne at h1 ⊢
        dsimp only at h1 ⊢
        cases hf : findInput fs ds n with
        | none => rw [hf] at h1; cases h1
        | some p =>
          rw [hf] at h1
          dsimp only at h1 ⊢
          cases hr : fs.read p with
          | none => rw [hr] at h1; cases h1
          | some c =>
            rw [hr] at h1
            dsimp only at h1 ⊢
            have ht : fileType c = .archive := (C71_file_type c).1.2 (har p c hf hr)
            rw [ht] at h1 ⊢
            dsimp only at h1 ⊢
            cases hq : fs.canon p with
            | none => rw [hq] at h1; cases h1
            | some q =>
              rw [hq] at h1
              dsimp only at h1 ⊢
              cases h1
              have : q ∈ found.archives := search_mono h q (mem_setInsert.2 (.inr rfl))
              unfold setInsert
              rw [if_pos this]
      · exact search_again har b h hm

/-- an archive that has been found under one name is found under another without effect -/
theorem search_other {ds : List Bytes} {n m q : Bytes} (hn : ∃ p, findInput fs ds n = some p)
    (har : ∀ x, x = n ∨ x = m → ∀ p, findInput fs ds x = some p → ∃ c, fs.read p = some c ∧ IsAr c ∧ fs.canon p = some q) (b : Bool) :
    ∀ {es : List (Bytes × Bool)} {acc found : Found}, searchForInputs fs ds es acc = (found, none) → m ∈ es.map (·.1) → searchOne fs ds found (n, b) = .ok found
  | [], _, _, _, hm => by cases hm
  | (x, b') :: es, acc, found, h, hm => by
    rw [searchForInputs] at h
    cases h1 : searchOne fs ds acc (x, b') with
    | error err => rw [h1] at h; cases h
    | ok acc' =>
      rw [h1] at h
      rcases List.mem_cons.1 hm with hm | hm
      · have hm : m = x := hm
        subst hm
        have one : ∀ (x : Bytes) (b : Bool) (acc : Found), x = n ∨ x = m → (∃ p, findInput fs ds x = some p) →
            searchOne fs ds acc (x, b) = .ok { acc with archives := setInsert acc.archives q } := by
          intro x b acc hx ⟨p, hp⟩
          obtain ⟨c, h2, h3, h4⟩ := har x hx p hp
          have ht : fileType c = .archive := (C71_file_type c).1.2 h3
          unfold searchOne
          dsimp only
          rw [hp]
          dsimp only
          rw [h2]
          dsimp only
          rw [ht]
          dsimp only
          rw [h4]
        have hf : ∃ p, findInput fs ds m = some p := by
          cases hf : findInput fs ds m with
          | some p => exact ⟨p, rfl⟩
          | none => unfold searchOne at h1; dsimp only at h1; rw [hf] at h1; cases h1
        rw [one m b' acc (.inr rfl) hf] at h1
        cases h1
        have : q ∈ found.archives := search_mono h q (mem_setInsert.2 (.inr rfl))
        rw [one n b found (.inl rfl) hn]
        unfold setInsert
        rw [if_pos this]
      · exact search_other hn har b h hm

/-- what a further input at the end of the command line does to the run, when it is found again without effect -/
theorem run_again {a n : Bytes} (hd : ∀ l, (dirs l).Perm l) (hr : Reads args ws) (hr' : Reads (args ++ [a]) (ws ++ [(a, none)]))
    (hi : inputOf (a, none) = some n)
    (key : ∀ ds, (∀ d, d ∈ ds ↔ d ∈ dirsOf fs.canon ws) → ∀ b found, searchForInputs fs ds (inputsOf ws) {} = (found, none) →
      searchOne fs ds found (n, b) = .ok found) :
    run parseElf parseAr fs writable dirs sched parseFuel fuel rounds (args ++ [a]) = run parseElf parseAr fs writable dirs sched parseFuel fuel rounds args := by
  have e : main fs dirs parseFuel fuel (args ++ [a]) = main fs dirs parseFuel fuel args := by
    unfold main
    rw [handleArgs_words hr', handleArgs_words hr, foldM'_append]
    cases hf : foldM' (applyWord fs.canon) {} ws with
    | error e => rfl
    | ok app =>
      have M : Meets fs.canon ws app := C67_meaning fs.canon args app (by rw [handleArgs_words hr]; exact hf) ws hr
      rw [ok_bind, foldM'_cons, applyWord_input hi]
      show (match searchForInputs fs (dirs app.searchPaths) (app.inputs ++ [(n, app.asNeeded)]) {} with
        | (_, some .panic) => Outcome.panic
        | (_, some (.notFound lib)) => .notFound lib
        | (found, none) =>
          if app.help then .help else scriptLoop fs dirs parseFuel fuel { app with inputs := [] } found) = _
      dsimp only
      rw [searchForInputs_snoc]
      cases hs : searchForInputs fs (dirs app.searchPaths) app.inputs {} with
      | mk found err =>
        cases err with
        | some err => rfl
        | none =>
          dsimp only
          rw [searchForInputs, key _ (fun d => by rw [(hd _).mem_iff, M.searchPaths, dirsOf, List.mem_filterMap]) app.asNeeded found (by rw [← M.inputs]; exact hs)]
          rfl
  unfold run
  rw [e]

/-- **C149**: a run whose command line names an archive once more at its end does exactly what the run without that does. -/
theorem C149_archive {a n : Bytes} (hd : ∀ l, (dirs l).Perm l) (hr : Reads args ws) (hr' : Reads (args ++ [a]) (ws ++ [(a, none)]))
    (hi : inputOf (a, none) = some n) (hm : n ∈ (inputsOf ws).map (·.1))
    (har : ∀ p c, Stands fs (dirsOf fs.canon ws) n p → fs.read p = some c → IsAr c) :
    run parseElf parseAr fs writable dirs sched parseFuel fuel rounds (args ++ [a]) = run parseElf parseAr fs writable dirs sched parseFuel fuel rounds args :=
  run_again hd hr hr' hi fun _ hds b _ hs =>
    search_again (fun p c hp hc => har p c ((stands_iff.2 ((C72_search_partial fs _ n).1 p hp)).congr hds) hc) b hs hm

/-- **C149** (another name): the same holds for another name of an archive that is already named, as a path and as `-lname`, or through a symbolic link. -/
theorem C149_other_name {a n m q : Bytes} (hd : ∀ l, (dirs l).Perm l) (hr : Reads args ws) (hr' : Reads (args ++ [a]) (ws ++ [(a, none)]))
    (hi : inputOf (a, none) = some n) (hm : m ∈ (inputsOf ws).map (·.1)) (hn : ∃ p, Stands fs (dirsOf fs.canon ws) n p)
    (har : ∀ x, x = n ∨ x = m → ∀ p, Stands fs (dirsOf fs.canon ws) x p → ∃ c, fs.read p = some c ∧ IsAr c ∧ fs.canon p = some q) :
    run parseElf parseAr fs writable dirs sched parseFuel fuel rounds (args ++ [a]) = run parseElf parseAr fs writable dirs sched parseFuel fuel rounds args :=
  run_again hd hr hr' hi fun ds hds b _ hs =>
    search_other (by
      obtain ⟨p, hp⟩ := hn
      cases hf : findInput fs ds n with
      | some p => exact ⟨p, rfl⟩
      | none => exact ((C72_search_partial fs ds n).2.1.1 hf p (stands_iff.1 (hp.congr fun d => (hds d).symm))).elim)
      (fun x hx p hp => har x hx p ((stands_iff.2 ((C72_search_partial fs _ x).1 p hp)).congr hds)) b hs hm

/-! ### In the world of the demonstration -/

/-- the files that `-lg` and `lib/libg.a` can stand for -/
theorem proc_archive {x : Bytes} (hx : x = b!"g" ∨ x = b!"lib/libg.a") {p : Bytes} (h : Stands procFs [b!"lib"] x p) : p = b!"lib/libg.a" := by
  obtain ⟨h1, h2⟩ := h
  have key : ([b!"g", b!"lib/libg.a"].all fun x =>
      [x, join b!"lib" x, join b!"lib" (b!"lib" ++ x ++ b!".so"), join b!"lib" (b!"lib" ++ x ++ b!".a")].all fun p =>
        !procFs.isFile p || p == b!"lib/libg.a") = true := by decide +kernel
  rw [List.all_eq_true] at key
  have key := key x (by rcases hx with rfl | rfl <;> simp)
  rw [List.all_eq_true] at key
  have key := key p (by
    obtain rfl | ⟨d, hd, h⟩ := h2
    · exact List.mem_cons_self
    · obtain rfl := List.mem_singleton.1 hd
      rcases h with rfl | rfl | rfl <;> simp)
  rw [h1] at key
  exact eq_of_beq key

/-- the command line of the demonstration -/
def againArgs : List Bytes := [b!"-o", b!"out", b!"main.o", b!"-L", b!"lib", b!"-lf", b!"-lg"]

/-- The link of the demonstration succeeds, and does the same with a second `-lg`, and with the path of the archive behind its name. -/
example :
    ends (.executable b!"out") b!"out" (fun f => f.length > 0) (procRun againArgs) = true ∧
    procRun (againArgs ++ [b!"-lg"]) = procRun againArgs ∧
    procRun (againArgs ++ [b!"lib/libg.a"]) = procRun againArgs := by
  have hr : Reads againArgs
      [(b!"-o", some b!"out"), (b!"main.o", none), (b!"-L", some b!"lib"), (b!"-lf", none), (b!"-lg", none)] :=
    .value (by decide) (.alone (by decide) (by decide) (.value (by decide) (.alone (by decide) (by decide) (.alone (by decide) (by decide) .nil))))
  have hr' (a : Bytes) (h1 : a ∉ valueOpts) (h2 : a ≠ b!"--build-id") : Reads (againArgs ++ [a])
      ([(b!"-o", some b!"out"), (b!"main.o", none), (b!"-L", some b!"lib"), (b!"-lf", none), (b!"-lg", none)] ++ [(a, none)]) :=
    .value (by decide) (.alone (by decide) (by decide) (.value (by decide) (.alone (by decide) (by decide) (.alone (by decide) (by decide)
      (.alone h1 h2 .nil)))))
  have hc : procFs.read b!"lib/libg.a" = some (b!"!<arch>" ++ [10] ++ List.replicate 10 0) := by decide +kernel
  have ha : IsAr (b!"!<arch>" ++ [10] ++ List.replicate 10 0) := by unfold IsAr; decide +kernel
  refine ⟨by decide +kernel, ?_, ?_⟩ <;> unfold procRun
  · refine C149_archive (n := b!"g") (fun _ => .rfl) hr (hr' b!"-lg" (by decide) (by decide)) (by decide +kernel) (by decide +kernel) fun p c hs hp => ?_
    rw [proc_archive (.inl rfl) hs, hc] at hp
    cases hp
    exact ha
  · refine C149_other_name (n := b!"lib/libg.a") (m := b!"g") (q := b!"lib/libg.a") (fun _ => .rfl) hr (hr' b!"lib/libg.a" (by decide) (by decide))
      (by decide +kernel) (by decide +kernel) ⟨b!"lib/libg.a", by decide +kernel, .inl rfl⟩ fun x hx p hs => ?_
    rw [proc_archive hx.symm hs]
    exact ⟨_, hc, ha, rfl⟩

end Cli
end Dld
