import Verif.Props.Cli
import Verif.Props.Script
/-! # Reading linker scripts from `main` (C79, C80) -/
namespace Dld.Cli

/-! ### C79 -/

/-- a file system with the given texts -/
def textFs (l : List (Bytes × Bytes)) : Fs :=
  { isFile := fun p => (l.lookup p).isSome, read := fun p => l.lookup p, canon := fun p => some p }

/-- a script that names itself -/
def selfFs : Fs := textFs [(b!"/a", b!"GROUP ( /a )")]

/-- **C79** is violated: with a linker script that names itself the linker never gets past reading its
inputs. -/
theorem C79_scripts_end_violated (dirs : List Bytes → List Bytes) (fuel parseFuel : Nat) :
    main selfFs dirs (parseFuel + 1) fuel [b!"/a"] = .running := by
  have hp : Script.parse (parseFuel + 1) [] b!"GROUP ( /a )" = .ok [b!"/a"] := by
    rw [Script.parse, show Script.line b!"GROUP ( /a )" = some (some [b!"/a"], []) by decide +kernel]
    simp
  have hs : ∀ (d : List Bytes) (acc : Found), searchForInputs selfFs d [(b!"/a", false)] acc = ({ acc with scripts := acc.scripts ++ [b!"/a"] }, none) := by
    intro d acc
    have hf : findInput selfFs d b!"/a" = some b!"/a" := by
      unfold findInput
      rw [show selfFs.isFile b!"/a" = true by decide +kernel]
      rfl
    have ht : fileType b!"GROUP ( /a )" = .text := by decide +kernel
    have hr : selfFs.read b!"/a" = some b!"GROUP ( /a )" := by decide +kernel
    rw [searchForInputs, searchOne]
    simp only [hf, hr, ht]
    rw [searchForInputs]
  have loop : ∀ fuel, scriptLoop selfFs dirs (parseFuel + 1) fuel {} { scripts := [b!"/a"] } = .running := by
    intro fuel
    induction fuel with
    | zero => rfl
    | succ n ih =>
      rw [scriptLoop]
      simp only [List.getLast?_singleton, List.dropLast_singleton]
      rw [show selfFs.read b!"/a" = some b!"GROUP ( /a )" by decide +kernel]
      simp only [hp]
      rw [show handleArgs selfFs.canon [b!"/a"] {} = .ok { inputs := [(b!"/a", false)] } by decide +kernel]
      simp only
      rw [hs]
      simp only [List.nil_append]
      exact ih
  unfold main
  rw [show handleArgs selfFs.canon [b!"/a"] {} = .ok { inputs := [(b!"/a", false)] } by decide +kernel]
  simp only
  rw [hs]
  simp only [List.nil_append, Bool.false_eq_true, if_false]
  exact loop fuel

/-- `Includes fs p q`: the file `q` is what the search can find for an input named by the script `p` -/
def Includes (fs : Fs) (p q : Bytes) : Prop :=
  ∃ text n args app app' e dirs, fs.read p = some text ∧ Script.parse n [] text = .ok args ∧ app.inputs = [] ∧
    handleArgs fs.canon args app = .ok app' ∧ e ∈ app'.inputs ∧ findInput fs dirs e.1 = some q

/-- the scripts a search adds -/
theorem search_scripts {fs : Fs} {dirs : List Bytes} {inputs : List (Bytes × Bool)} {acc found : Found} {err : Option SearchErr}
    (h : searchForInputs fs dirs inputs acc = (found, err)) :
    ∃ new, found.scripts = acc.scripts ++ new ∧ ∀ q ∈ new, ∃ e ∈ inputs, findInput fs dirs e.1 = some q := by
  induction inputs generalizing acc with
  | nil => cases h; exact ⟨[], by simp, fun q hq => by cases hq⟩
  | cons e es ih =>
    rw [searchForInputs] at h
    have one : ∀ acc', searchOne fs dirs acc e = .ok acc' →
        ∃ new, acc'.scripts = acc.scripts ++ new ∧ ∀ q ∈ new, findInput fs dirs e.1 = some q := by
      intro acc' h'
      unfold searchOne at h'
      split at h'
      · cases h'
      · next p hp =>
        split at h'
        · cases h'
        · split at h'
          · split at h' <;> cases h'
            exact ⟨[], by simp, fun q hq => by cases hq⟩
          · split at h' <;> cases h'
            exact ⟨[], by simp, fun q hq => by cases hq⟩
          · cases h'; exact ⟨[], by simp, fun q hq => by cases hq⟩
          · cases h'; exact ⟨[p], rfl, fun q hq => by simp at hq; rw [hq, hp]⟩
    split at h
    · next acc' h1 =>
      obtain ⟨n1, a1, b1⟩ := one acc' h1
      obtain ⟨n2, a2, b2⟩ := ih h
      refine ⟨n1 ++ n2, by rw [a2, a1, List.append_assoc], fun q hq => ?_⟩
      rcases List.mem_append.1 hq with hq | hq
      · exact ⟨e, by simp, b1 q hq⟩
      · obtain ⟨e', he', h'⟩ := b2 q hq
        exact ⟨e', by simp [he'], h'⟩
    · cases h; exact ⟨[], by simp, fun q hq => by cases hq⟩

/-- **C79**, the part that holds: if no script includes itself, directly or through others (there is a
rank that goes down along `Includes`), and every script's text can be parsed to an end, the loop over
the scripts ends. What is missing: scripts that include themselves (`C79_scripts_end_violated`). -/
theorem C79_scripts_end_partial (fs : Fs) (dirs : List Bytes → List Bytes) (parseFuel : Nat) (rank : Bytes → Nat)
    (hrank : ∀ p q, Includes fs p q → rank q < rank p)
    (hparse : ∀ p text, fs.read p = some text → Script.parse parseFuel [] text ≠ .running) (args : List Bytes) :
    ∃ fuel, ∀ more, main fs dirs parseFuel (fuel + more) args ≠ .running := by
  -- a stack with scripts of rank below `n` on top is worked off, or the loop ends before
  have work : ∀ (n : Nat) (top : List Bytes), (∀ p ∈ top, rank p < n) → ∀ (app : App) (found : Found) (base : List Bytes),
      app.inputs = [] → found.scripts = base ++ top →
      (∃ k, ∀ more, scriptLoop fs dirs parseFuel (k + more) app found ≠ .running) ∨
      (∃ k app' found', app'.inputs = [] ∧ found'.scripts = base ∧
        ∀ more, scriptLoop fs dirs parseFuel (k + more) app found = scriptLoop fs dirs parseFuel more app' found') := by
    intro n
    induction n with
    | zero =>
      intro top ht app found base ha hs
      cases top with
      | nil => exact .inr ⟨0, app, found, ha, by simpa using hs, fun more => by rw [Nat.zero_add]⟩
      | cons p _ => exact absurd (ht p (by simp)) (by omega)
    | succ n ihn =>
      intro top
      -- the top of the stack is the end of the list
      generalize hlen : top.length = len
      induction len generalizing top with
      | zero =>
        intro _ app found base ha hs
        obtain rfl := List.length_eq_zero_iff.1 hlen
        exact .inr ⟨0, app, found, ha, by simpa using hs, fun more => by rw [Nat.zero_add]⟩
      | succ len ih =>
        intro ht app found base ha hs
        obtain ⟨init, p, rfl⟩ : ∃ init p, top = init ++ [p] :=
          ⟨top.dropLast, top.getLast (by intro e; simp [e] at hlen), (List.dropLast_concat_getLast _).symm⟩
        have hinit : init.length = len := by simpa using hlen
        have htinit : ∀ q ∈ init, rank q < n + 1 := fun q hq => ht q (by simp [hq])
        have hp := ht p (by simp)
        have hlast : found.scripts.getLast? = some p := by rw [hs, ← List.append_assoc]; simp
        have hdrop : found.scripts.dropLast = base ++ init := by rw [hs, ← List.append_assoc]; simp
        have hstep : ∀ f, scriptLoop fs dirs parseFuel (f + 1) app found = _ := fun f => by rw [scriptLoop]
        simp only [hlast, hdrop] at hstep
        cases hr : fs.read p with
        | none =>
          refine .inl ⟨1, fun more => ?_⟩
          rw [Nat.add_comm, hstep, hr]
          simp
        | some text =>
          simp only [hr] at hstep
          cases hpa : Script.parse parseFuel [] text with
          | running => exact absurd hpa (hparse p text hr)
          | error =>
            refine .inl ⟨1, fun more => ?_⟩
            rw [Nat.add_comm, hstep, hpa]
            simp
          | ok args =>
            simp only [hpa] at hstep
            -- what happens from a state with the scripts below and new ones of lower rank
            have rest : ∀ (app' : App) (found' : Found) (new : List Bytes), app'.inputs = [] → found'.scripts = (base ++ init) ++ new →
                (∀ q ∈ new, rank q < n) →
                (∀ f, scriptLoop fs dirs parseFuel (f + 1) app found = scriptLoop fs dirs parseFuel f app' found') →
                (∃ k, ∀ more, scriptLoop fs dirs parseFuel (k + more) app found ≠ .running) ∨
                (∃ k app' found', app'.inputs = [] ∧ found'.scripts = base ∧
                  ∀ more, scriptLoop fs dirs parseFuel (k + more) app found = scriptLoop fs dirs parseFuel more app' found') := by
              intro app' found' new ha' hs' hnew heq
              rcases ihn new hnew app' found' (base ++ init) ha' hs' with ⟨k, hk⟩ | ⟨k, app2, found2, ha2, hs2, hk⟩
              · refine .inl ⟨k + 1, fun more => ?_⟩
                rw [Nat.add_right_comm, heq]
                exact hk more
              · rcases ih init hinit htinit app2 found2 base ha2 hs2 with ⟨k2, hk2⟩ | ⟨k2, app3, found3, ha3, hs3, hk3⟩
                · refine .inl ⟨k + k2 + 1, fun more => ?_⟩
                  rw [Nat.add_right_comm, heq, Nat.add_assoc, hk]
                  exact hk2 more
                · refine .inr ⟨k + k2 + 1, app3, found3, ha3, hs3, fun more => ?_⟩
                  rw [Nat.add_right_comm, heq, Nat.add_assoc, hk, hk3]
            cases args with
            | nil =>
              exact rest app { found with scripts := base ++ init } [] ha (by simp) (fun q hq => by cases hq) (fun f => by rw [hstep])
            | cons a args =>
              simp only at hstep
              cases hh : handleArgs fs.canon (a :: args) app with
              | error e =>
                refine .inl ⟨1, fun more => ?_⟩
                rw [Nat.add_comm, hstep, hh]
                cases e <;> simp
              | ok app1 =>
                simp only [hh] at hstep
                cases hsf : searchForInputs fs (dirs app1.searchPaths) app1.inputs { found with scripts := base ++ init } with
                | mk found1 err =>
                  obtain ⟨new, hn1, hn2⟩ := search_scripts hsf
                  rw [hsf] at hstep
                  have hnew : ∀ q ∈ new, rank q < n := by
                    intro q hq
                    obtain ⟨e, he, hf⟩ := hn2 q hq
                    have := hrank p q ⟨text, parseFuel, a :: args, app, app1, e, _, hr, hpa, ha, hh, he, hf⟩
                    omega
                  cases err with
                  | none =>
                    exact rest { app1 with inputs := [] } found1 new rfl (by rw [hn1]) hnew (fun f => by rw [hstep])
                  | some err =>
                    cases err with
                    | panic =>
                      refine .inl ⟨1, fun more => ?_⟩
                      rw [Nat.add_comm, hstep]
                      simp
                    | notFound l =>
                      exact rest { app1 with inputs := [] } found1 new rfl (by rw [hn1]) hnew (fun f => by rw [hstep])
  unfold main
  cases hh : handleArgs fs.canon args {} with
  | error e => refine ⟨0, fun more => ?_⟩; cases e <;> simp
  | ok app =>
    simp only
    cases hsf : searchForInputs fs (dirs app.searchPaths) app.inputs {} with
    | mk found err =>
      cases err with
      | some err => refine ⟨0, fun more => ?_⟩; cases err <;> simp
      | none =>
        simp only
        by_cases hhelp : app.help = true
        · exact ⟨0, fun more => by simp [hhelp]⟩
        · suffices h : ∃ fuel, ∀ more, scriptLoop fs dirs parseFuel (fuel + more) { app with inputs := [] } found ≠ .running by
            obtain ⟨f, h⟩ := h
            exact ⟨f, fun more => by rw [if_neg hhelp]; exact h more⟩
          -- all scripts have a rank below the greatest plus one
          obtain ⟨n, hn⟩ : ∃ n, ∀ p ∈ found.scripts, rank p < n := by
            generalize found.scripts = l
            induction l with
            | nil => exact ⟨0, fun p hp => by cases hp⟩
            | cons q l ih =>
              obtain ⟨n, hn⟩ := ih
              refine ⟨n + rank q + 1, fun p hp => ?_⟩
              rcases List.mem_cons.1 hp with rfl | hp
              · omega
              · have := hn p hp; omega
          rcases work n found.scripts hn { app with inputs := [] } found [] rfl (by simp) with ⟨k, hk⟩ | ⟨k, app', found', _, hs', hk⟩
          · exact ⟨k, hk⟩
          · refine ⟨k + 1, fun more => ?_⟩
            rw [show k + 1 + more = k + (more + 1) by omega, hk, scriptLoop, hs']
            simp

/-- a script naming a library: nothing the search finds is a script, so any rank with the script above
works -/
example : let fs := textFs [(b!"/c", b!"GROUP ( /d )"), (b!"/d", b!"/* nothing */")]
    (∀ p q, Includes fs p q → (if q = b!"/c" then 1 else 0) < if p = b!"/c" then 1 else 0) ∧
    (∀ p text, fs.read p = some text → Script.parse 20 [] text ≠ .running) ∧
    main fs id 20 5 [b!"/c"] = .link {} {} := by
  intro fs
  have hread : ∀ p text, fs.read p = some text → p = b!"/c" ∧ text = b!"GROUP ( /d )" ∨ p = b!"/d" ∧ text = b!"/* nothing */" := by
    intro p text h
    simp only [fs, textFs, List.lookup] at h
    by_cases h1 : p = b!"/c"
    · subst h1; simp at h; exact .inl ⟨rfl, h.symm⟩
    · rw [show (p == b!"/c") = false by simpa using h1] at h
      by_cases h2 : p = b!"/d"
      · subst h2; simp at h; exact .inr ⟨rfl, h.symm⟩
      · rw [show (p == b!"/d") = false by simpa using h2] at h
        cases h
  have hend : ∀ (text : Bytes) n, text = b!"GROUP ( /d )" ∨ text = b!"/* nothing */" → Script.parse n [] text ≠ .running →
      Script.parse n [] text = Script.parse 20 [] text := by
    intro text n ht hn
    have h20 : ∀ n, 20 ≤ n → Script.parse n [] text = Script.parse 20 [] text := by
      intro n h20
      rcases Script.C73_termination_partial text [] with ⟨_, h⟩ | ⟨_, _, h⟩
      · exact absurd (h 20) (by rcases ht with rfl | rfl <;> decide +kernel)
      · rw [h n (by rcases ht with rfl | rfl <;> simp <;> omega), h 20 (by rcases ht with rfl | rfl <;> simp)]
    by_cases h : 20 ≤ n
    · exact h20 n h
    · have : n = 0 ∨ n ≠ 0 := by omega
      have : ∀ n < 20, Script.parse n [] text ≠ .running → Script.parse n [] text = Script.parse 20 [] text := by
        rcases ht with rfl | rfl <;> decide +kernel
      exact this n (by omega) hn
  refine ⟨?_, ?_, by decide +kernel⟩
  · rintro p q ⟨text, n, args, app, app', e, dirs, hr, hp, ha, hh, he, hf⟩
    rcases hread p text hr with ⟨rfl, rfl⟩ | ⟨rfl, rfl⟩
    · have : args = [b!"/d"] := by
        have h := hend _ n (.inl rfl) (by rw [hp]; simp)
        rw [hp, show Script.parse 20 [] b!"GROUP ( /d )" = .ok [b!"/d"] by decide +kernel] at h
        cases h; rfl
      subst this
      have : app' = { app with inputs := [(b!"/d", app.asNeeded)] } := by
        have : handleArgs fs.canon [b!"/d"] app = .ok { app with inputs := app.inputs ++ [(b!"/d", app.asNeeded)] } := by
          simp [handleArgs, special, stripPrefix]
        rw [this, ha] at hh
        cases hh; rfl
      subst this
      simp at he
      subst he
      have : findInput fs dirs b!"/d" = some b!"/d" := by
        unfold findInput; rw [show fs.isFile b!"/d" = true by decide +kernel]; rfl
      rw [this] at hf
      cases hf
      decide
    · have : args = [] := by
        have h := hend _ n (.inr rfl) (by rw [hp]; simp)
        rw [hp, show Script.parse 20 [] b!"/* nothing */" = .ok [] by decide +kernel] at h
        cases h; rfl
      subst this
      rw [show handleArgs fs.canon [] app = .ok app by rw [handleArgs]] at hh
      cases hh
      rw [ha] at he
      cases he
  · intro p text h
    rcases hread p text h with ⟨_, rfl⟩ | ⟨_, rfl⟩ <;> decide +kernel

/-! ### C80 -/

/-- **C80** is violated: a script names a library that does not exist and one that does; the linker is
called with neither, and no error is reported. -/
theorem C80_script_inputs_violated : ∃ (fs : Fs) (app : App), fs.isFile b!"/real.so" = true ∧
    (∀ fuel, main fs id 100 (fuel + 2) [b!"/s"] = .link app {}) ∧
    ∃ text, fs.read b!"/s" = some text ∧ Script.parse 100 [] text = .ok [b!"/missing.so", b!"/real.so"] := by
  let fs := textFs [(b!"/s", b!"GROUP ( /missing.so /real.so )"), (b!"/real.so", [0x7f] ++ b!"ELF" ++ List.replicate 12 0 ++ [3, 0])]
  refine ⟨fs, {}, by decide +kernel, fun fuel => ?_, b!"GROUP ( /missing.so /real.so )", by decide +kernel, by decide +kernel⟩
  have h1 : handleArgs fs.canon [b!"/s"] {} = .ok { inputs := [(b!"/s", false)] } := by decide +kernel
  have h2 : searchForInputs fs [] [(b!"/s", false)] {} = ({ scripts := [b!"/s"] }, none) := by decide +kernel
  have h3 : fs.read b!"/s" = some b!"GROUP ( /missing.so /real.so )" := by decide +kernel
  have h4 : Script.parse 100 [] b!"GROUP ( /missing.so /real.so )" = .ok [b!"/missing.so", b!"/real.so"] := by decide +kernel
  have h5 : handleArgs fs.canon [b!"/missing.so", b!"/real.so"] {} = .ok { inputs := [(b!"/missing.so", false), (b!"/real.so", false)] } := by decide +kernel
  have h6 : searchForInputs fs [] [(b!"/missing.so", false), (b!"/real.so", false)] {} = ({}, some (.notFound b!"/missing.so")) := by decide +kernel
  unfold main
  rw [h1]
  simp only [id]
  rw [h2]
  simp only [Bool.false_eq_true, if_false]
  rw [scriptLoop]
  simp only [List.getLast?_singleton, List.dropLast_singleton, h3, h4, h5, id]
  rw [h6]
  simp only
  rw [scriptLoop]
  rfl

/-- `Given fs found p asNeeded`: the linker is given the file `p` -/
def Given (fs : Fs) (parseFuel : Nat) (found : Found) (p : Bytes) (asNeeded : Bool) : Prop :=
  ∃ contents, fs.read p = some contents ∧
    match fileType contents with
    | .elfObject => ∃ c, fs.canon p = some c ∧ c ∈ found.objects
    | .archive => ∃ c, fs.canon p = some c ∧ c ∈ found.archives
    | .elfSharedLib => (p, asNeeded) ∈ found.sharedLibs
    | .text => ∃ args, Script.parse parseFuel [] contents = .ok args

/-- a file list that contains another -/
def Found.Sub (a b : Found) : Prop :=
  (∀ p ∈ a.objects, p ∈ b.objects) ∧ (∀ p ∈ a.archives, p ∈ b.archives) ∧ (∀ p ∈ a.sharedLibs, p ∈ b.sharedLibs)

theorem searchOne_sub {fs : Fs} {dirs : List Bytes} {acc acc' : Found} {e : Bytes × Bool} (h : searchOne fs dirs acc e = .ok acc') : acc.Sub acc' := by
  unfold searchOne at h
  split at h
  · cases h
  · split at h
    · cases h
    · split at h
      · split at h <;> cases h
        exact ⟨fun p hp => by simp [hp], fun p hp => hp, fun p hp => hp⟩
      · split at h <;> cases h
        exact ⟨fun p hp => hp, fun p hp => mem_setInsert.2 (.inl hp), fun p hp => hp⟩
      · cases h; exact ⟨fun p hp => hp, fun p hp => hp, fun p hp => by simp [hp]⟩
      · cases h; exact ⟨fun p hp => hp, fun p hp => hp, fun p hp => hp⟩

theorem Found.Sub.trans {a b c : Found} (h : a.Sub b) (h' : b.Sub c) : a.Sub c :=
  ⟨fun p hp => h'.1 p (h.1 p hp), fun p hp => h'.2.1 p (h.2.1 p hp), fun p hp => h'.2.2 p (h.2.2 p hp)⟩

theorem search_sub {fs : Fs} {dirs : List Bytes} {inputs : List (Bytes × Bool)} {acc found : Found} {err : Option SearchErr}
    (h : searchForInputs fs dirs inputs acc = (found, err)) : acc.Sub found := by
  induction inputs generalizing acc with
  | nil => cases h; exact ⟨fun p hp => hp, fun p hp => hp, fun p hp => hp⟩
  | cons e es ih =>
    rw [searchForInputs] at h
    split at h
    · next acc' h1 => exact (searchOne_sub h1).trans (ih h)
    · cases h; exact ⟨fun p hp => hp, fun p hp => hp, fun p hp => hp⟩

/-- what a loop over the scripts that reaches the linker keeps, and that it read every script -/
theorem scriptLoop_link {fs : Fs} {dirs : List Bytes → List Bytes} {parseFuel fuel : Nat} {app app' : App} {found found' : Found}
    (h : scriptLoop fs dirs parseFuel fuel app found = .link app' found') :
    found.Sub found' ∧ ∀ s ∈ found.scripts, ∃ text args, fs.read s = some text ∧ Script.parse parseFuel [] text = .ok args := by
  induction fuel generalizing app found with
  | zero => cases h
  | succ n ih =>
    rw [scriptLoop] at h
    cases hl : found.scripts.getLast? with
    | none =>
      rw [hl] at h
      cases h
      rw [List.getLast?_eq_none_iff.1 hl]
      exact ⟨⟨fun p hp => hp, fun p hp => hp, fun p hp => hp⟩, fun s hs => by cases hs⟩
    | some script =>
      simp only [hl] at h
      have split : ∀ s ∈ found.scripts, s = script ∨ s ∈ found.scripts.dropLast := by
        intro s hs
        have hne : found.scripts ≠ [] := by intro e; rw [e] at hl; cases hl
        rw [← List.dropLast_concat_getLast hne] at hs
        rcases List.mem_append.1 hs with hs | hs
        · exact .inr hs
        · left
          rw [List.getLast?_eq_some_getLast hne] at hl
          cases hl
          simpa using hs
      cases hr : fs.read script with
      | none => rw [hr] at h; cases h
      | some text =>
        simp only [hr] at h
        cases hp : Script.parse parseFuel [] text with
        | running => rw [hp] at h; cases h
        | error => rw [hp] at h; cases h
        | ok args =>
          simp only [hp] at h
          cases args with
          | nil =>
            simp only at h
            obtain ⟨h1, h2⟩ := ih h
            refine ⟨h1, fun s hs => ?_⟩
            rcases split s hs with rfl | hs
            · exact ⟨text, [], hr, hp⟩
            · exact h2 s hs
          | cons a args =>
            simp only at h
            cases hh : handleArgs fs.canon (a :: args) app with
            | error e => rw [hh] at h; cases e <;> cases h
            | ok app1 =>
              simp only [hh] at h
              cases hsf : searchForInputs fs (dirs app1.searchPaths) app1.inputs { found with scripts := found.scripts.dropLast } with
              | mk found1 err =>
                rw [hsf] at h
                have hsub := search_sub hsf
                obtain ⟨new, hn, _⟩ := search_scripts hsf
                have : scriptLoop fs dirs parseFuel n { app1 with inputs := [] } found1 = .link app' found' := by
                  cases err with
                  | none => exact h
                  | some err => cases err with
                    | panic => cases h
                    | notFound l => exact h
                obtain ⟨h1, h2⟩ := ih this
                refine ⟨Found.Sub.trans ⟨hsub.1, hsub.2.1, hsub.2.2⟩ h1, fun s hs => ?_⟩
                rcases split s hs with rfl | hs
                · exact ⟨text, a :: args, hr, hp⟩
                · exact h2 s (by rw [hn]; simp [hs])

/-- **C80**, the part that holds: when the linker is called, every input named on the command line was
found; objects, archives and libraries are among what the linker is given, and scripts were read.
What is missing: inputs named by scripts (`C80_script_inputs_violated`). -/
theorem C80_inputs_partial {fs : Fs} {dirs : List Bytes → List Bytes} {parseFuel fuel : Nat} {args : List Bytes} {app : App} {found : Found}
    (h : main fs dirs parseFuel fuel args = .link app found) :
    ∃ app0, handleArgs fs.canon args {} = .ok app0 ∧
      ∀ e ∈ app0.inputs, ∃ p, findInput fs (dirs app0.searchPaths) e.1 = some p ∧ Given fs parseFuel found p e.2 := by
  unfold main at h
  cases hh : handleArgs fs.canon args {} with
  | error e => rw [hh] at h; cases e <;> cases h
  | ok app0 =>
    refine ⟨app0, rfl, ?_⟩
    simp only [hh] at h
    cases hsf : searchForInputs fs (dirs app0.searchPaths) app0.inputs {} with
    | mk found0 err =>
      rw [hsf] at h
      cases err with
      | some err => cases err <;> cases h
      | none =>
        simp only at h
        split at h
        · cases h
        · obtain ⟨h1, h2⟩ := scriptLoop_link h
          have key : ∀ (inputs : List (Bytes × Bool)) (acc : Found), searchForInputs fs (dirs app0.searchPaths) inputs acc = (found0, none) →
              ∀ e ∈ inputs, ∃ p, findInput fs (dirs app0.searchPaths) e.1 = some p ∧ Given fs parseFuel found p e.2 := by
            intro inputs
            induction inputs with
            | nil => exact fun _ _ e he => by cases he
            | cons e es ih =>
              intro acc hacc e' he'
              rw [searchForInputs] at hacc
              cases ho : searchOne fs (dirs app0.searchPaths) acc e with
              | error err => rw [ho] at hacc; cases hacc
              | ok acc' =>
                rw [ho] at hacc
                rcases List.mem_cons.1 he' with rfl | he'
                · have hs := search_sub hacc
                  obtain ⟨new, hn, _⟩ := search_scripts hacc
                  have hsub : acc'.Sub found := hs.trans h1
                  unfold searchOne at ho
                  split at ho
                  · cases ho
                  · next p hp =>
                    refine ⟨p, hp, ?_⟩
                    cases hr : fs.read p with
                    | none => rw [hr] at ho; cases ho
                    | some contents =>
                      refine ⟨contents, hr, ?_⟩
                      rw [hr] at ho
                      simp only at ho
                      cases ht : fileType contents with
                      | elfObject =>
                        rw [ht] at ho
                        cases hc : fs.canon p with
                        | none => rw [hc] at ho; cases ho
                        | some c => rw [hc] at ho; cases ho; exact ⟨c, rfl, hsub.1 c (by simp)⟩
                      | archive =>
                        rw [ht] at ho
                        cases hc : fs.canon p with
                        | none => rw [hc] at ho; cases ho
                        | some c => rw [hc] at ho; cases ho; exact ⟨c, rfl, hsub.2.1 c (mem_setInsert.2 (.inr rfl))⟩
                      | elfSharedLib => rw [ht] at ho; cases ho; exact hsub.2.2 _ (by simp)
                      | text =>
                        rw [ht] at ho
                        cases ho
                        obtain ⟨text, args, ha, hb⟩ := h2 p (by rw [hn]; simp)
                        rw [hr] at ha
                        cases ha
                        exact ⟨args, hb⟩
                · exact ih acc' hacc e' he'
          exact key _ _ hsf

/-- an object and a library -/
example : main (textFs [(b!"a.o", [0x7f] ++ b!"ELF" ++ List.replicate 12 0 ++ [1, 0]), (b!"/l/libx.so", [0x7f] ++ b!"ELF" ++ List.replicate 12 0 ++ [3, 0])])
    id 5 5 [b!"a.o", b!"-L/l", b!"-lx"] = .link { searchPaths := [b!"/l"] } { objects := [b!"a.o"], sharedLibs := [(b!"/l/libx.so", false)] } := by
  decide +kernel

end Dld.Cli
