import Verif.Model.Cli
import Verif.Spec.Cli
import Verif.Lemmas.Except
/-! # The command line (C67–C73, C79, C80) -/
namespace Dld.Cli
set_option linter.unusedSimpArgs false

/-! ### C67, C68 -/

/-- the effect of one word -/
def applyWord (canon : Bytes → Option Bytes) (app : App) (w : Word) : Except CliErr App :=
  if w.1 = b!"--build-id" then
    match w.2 with
    | some v =>
      match BuildId.fromStr v with
      | some b => .ok { app with buildId := some b }
      | none => .error (.badValue v)
    | none => .ok { app with buildId := some .sha1 }
  else if w.1 = b!"-m" then
    match w.2 with
    | some v =>
      match Emulation.fromStr v with
      | some e => .ok { app with emulation := e }
      | none => .error (.badValue v)
    | none => .error .panic
  else if w.1 = b!"-o" then .ok { app with output := w.2.getD [] }
  else if w.1 = b!"--eh-frame-hdr" then .ok { app with ehFrameHdr := true }
  else if w.1 = b!"--help" ∨ w.1 = b!"-h" then .ok { app with help := true }
  else if w.1 = b!"-dynamic-linker" then .ok { app with dynamicLinker := w.2.getD [] }
  else if w.1 = b!"-L" then .ok { app with searchPaths := setInsert app.searchPaths (w.2.getD []) }
  else if w.1 = b!"-l" then .ok { app with inputs := app.inputs ++ [(w.2.getD [], app.asNeeded)] }
  else if w.1 = b!"-z" then .ok app
  else if w.1 = b!"--as-needed" then .ok { app with asNeeded := true }
  else if w.1 = b!"--no-as-needed" then .ok { app with asNeeded := false }
  else if w.1 = b!"--start-group" ∨ w.1 = b!"--end-group" then .ok app
  else special canon w.1 app

theorem startsDash_iff (v : Bytes) : startsDash v = true ↔ v.head? = some 45 := by simp [startsDash]

/-- reading words, in front of arguments that start with an option -/
theorem handleArgs_reads {canon : Bytes → Option Bytes} {pre : List Bytes} {ws : List Word} (h : Reads pre ws) (tail : List Bytes)
    (ht : ∀ v, tail.head? = some v → v.head? = some 45) (app : App) :
    handleArgs canon (pre ++ tail) app = foldM' (applyWord canon) app ws >>= fun app => handleArgs canon tail app := by
  induction h generalizing app with
  | nil => rfl
  | @value o v rest ws ho _ ih =>
    rw [foldM'_cons]
    simp only [valueOpts, List.mem_cons, List.not_mem_nil, or_false] at ho
    rcases ho with rfl | rfl | rfl | rfl | rfl | rfl
    · show (match Emulation.fromStr v with
        | some e => handleArgs canon (rest ++ tail) { app with emulation := e }
        | none => .error (CliErr.badValue v)) = _
      show _ = (match Emulation.fromStr v with
        | some e => Except.ok { app with emulation := e }
        | none => .error (CliErr.badValue v)) >>= _ >>= _
      cases Emulation.fromStr v with
      | none => rfl
      | some e => exact ih _
    · exact ih { app with output := v }
    · exact ih { app with dynamicLinker := v }
    · exact ih { app with searchPaths := setInsert app.searchPaths v }
    · exact ih { app with inputs := app.inputs ++ [(v, app.asNeeded)] }
    · exact ih app
  | @buildId v rest ws hv _ ih =>
    rw [foldM'_cons]
    simp only [List.cons_append]
    rw [handleArgs.eq_def]
    simp only
    rw [if_pos trivial, if_pos (by simpa [startsDash] using hv), applyWord, if_pos rfl]
    simp only
    cases BuildId.fromStr v with
    | none => rfl
    | some e => exact ih _
  | @buildIdAlone rest ws hr _ ih =>
    rw [foldM'_cons]
    have hb : ∀ v, (rest ++ tail).head? = some v → v.head? = some 45 := by
      cases rest with
      | nil => exact ht
      | cons a l => exact hr
    have e := ih { app with buildId := some .sha1 }
    show _ = foldM' (applyWord canon) { app with buildId := some .sha1 } ws >>= _
    rw [← e, List.cons_append, handleArgs.eq_def]
    simp only
    rw [if_pos trivial]
    cases hc : rest ++ tail with
    | nil => rfl
    | cons v l =>
      simp only
      rw [if_neg]
      simpa [startsDash] using hb v (by rw [hc]; rfl)
  | @alone a rest ws ha hb _ ih =>
    rw [foldM'_cons, List.cons_append, handleArgs.eq_def]
    simp only [valueOpts, List.mem_cons, List.not_mem_nil, or_false, not_or] at ha
    obtain ⟨h1, h2, h3, h4, h5, h6⟩ := ha
    unfold applyWord
    simp only [if_neg hb, if_neg h1, if_neg h2, if_neg h3, if_neg h4, if_neg h5, if_neg h6]
    by_cases g1 : a = b!"--eh-frame-hdr"
    · rw [if_pos g1, if_pos g1]; exact ih _
    rw [if_neg g1, if_neg g1]
    by_cases g1 : a = b!"--help" ∨ a = b!"-h"
    · rw [if_pos g1, if_pos g1]; exact ih _
    rw [if_neg g1, if_neg g1]
    by_cases g1 : a = b!"--as-needed"
    · rw [if_pos g1, if_pos g1]; exact ih _
    rw [if_neg g1, if_neg g1]
    by_cases g1 : a = b!"--no-as-needed"
    · rw [if_pos g1, if_pos g1]; exact ih _
    rw [if_neg g1, if_neg g1]
    by_cases g1 : a = b!"--start-group" ∨ a = b!"--end-group"
    · rw [if_pos g1, if_pos g1]; exact ih _
    rw [if_neg g1, if_neg g1]
    cases special canon a app with
    | error e => rfl
    | ok app => exact ih app

/-- a value option at the end of the arguments is an error -/
theorem handleArgs_dangling (canon : Bytes → Option Bytes) {o : Bytes} (ho : o ∈ valueOpts) (app : App) :
    handleArgs canon [o] app = .error (.missing o) := by
  simp only [valueOpts, List.mem_cons, List.not_mem_nil, or_false] at ho
  rcases ho with rfl | rfl | rfl | rfl | rfl | rfl <;> rfl

/-- every argument list is words, or words and an option without its value -/
theorem reads_total (n : Nat) (args : List Bytes) (hn : args.length ≤ n) :
    (∃ ws, Reads args ws) ∨ ∃ pre o ws, args = pre ++ [o] ∧ o ∈ valueOpts ∧ Reads pre ws := by
  induction n generalizing args with
  | zero => exact .inl ⟨[], by rw [List.length_eq_zero_iff.1 (by omega : args.length = 0)]; exact .nil⟩
  | succ n ih =>
    cases args with
    | nil => exact .inl ⟨[], .nil⟩
    | cons a rest =>
      simp only [List.length_cons] at hn
      by_cases ha : a ∈ valueOpts
      · cases rest with
        | nil => exact .inr ⟨[], a, [], rfl, ha, .nil⟩
        | cons v rest =>
          simp only [List.length_cons] at hn
          rcases ih rest (by omega) with ⟨ws, h⟩ | ⟨pre, o, ws, rfl, ho, h⟩
          · exact .inl ⟨_, .value ha h⟩
          · exact .inr ⟨a :: v :: pre, o, _, rfl, ho, .value ha h⟩
      · by_cases hb : a = b!"--build-id"
        · subst hb
          by_cases hv : ∀ v, rest.head? = some v → v.head? = some 45
          · rcases ih rest (by omega) with ⟨ws, h⟩ | ⟨pre, o, ws, rfl, ho, h⟩
            · exact .inl ⟨_, .buildIdAlone hv h⟩
            · refine .inr ⟨_ :: pre, o, _, rfl, ho, .buildIdAlone ?_ h⟩
              cases pre with
              | nil => intro v hv; cases hv
              | cons x l => exact hv
          · cases rest with
            | nil => exact absurd (fun v hv => by cases hv) hv
            | cons v rest =>
              have hv' : v.head? ≠ some 45 := fun e => hv fun _ h => by cases h; exact e
              simp only [List.length_cons] at hn
              rcases ih rest (by omega) with ⟨ws, h⟩ | ⟨pre, o, ws, rfl, ho, h⟩
              · exact .inl ⟨_, .buildId hv' h⟩
              · exact .inr ⟨_ :: v :: pre, o, _, rfl, ho, .buildId hv' h⟩
        · rcases ih rest (by omega) with ⟨ws, h⟩ | ⟨pre, o, ws, rfl, ho, h⟩
          · exact .inl ⟨_, .alone ha hb h⟩
          · exact .inr ⟨a :: pre, o, _, rfl, ho, .alone ha hb h⟩

/-- what the words `ws` are to result in, starting from the defaults -/
structure Meets (canon : Bytes → Option Bytes) (ws : List Word) (app : App) : Prop where
  output : app.output = ((valuesOf b!"-o" ws).getLast?).getD b!"./out"
  dynamicLinker : app.dynamicLinker = ((valuesOf b!"-dynamic-linker" ws).getLast?).getD b!"/lib64/ld-linux-x86-64.so.2"
  buildId : app.buildId = (buildIdsOf ws).getLast?
  hashStyle : app.hashStyle = ((stylesOf ws).getLast?).getD .both
  ehFrameHdr : app.ehFrameHdr = true ↔ (b!"--eh-frame-hdr", none) ∈ ws
  help : app.help = true ↔ (b!"--help", none) ∈ ws ∨ (b!"-h", none) ∈ ws
  asNeeded : app.asNeeded = asNeededAfter ws
  inputs : app.inputs = inputsOf ws
  searchPaths : ∀ d, d ∈ app.searchPaths ↔ ∃ w ∈ ws, dirOf canon w = some d

/-- the words an argument list can consist of -/
def WordForm (w : Word) : Prop :=
  (w.1 ∈ valueOpts ∧ w.2.isSome) ∨ w.1 = b!"--build-id" ∨ (w.1 ∉ valueOpts ∧ w.1 ≠ b!"--build-id" ∧ w.2 = none)

theorem Reads.form {args : List Bytes} {ws : List Word} (h : Reads args ws) : ∀ w ∈ ws, WordForm w := by
  induction h with
  | nil => intro w hw; cases hw
  | value ho _ ih => intro w hw; exact (List.mem_cons.1 hw).elim (fun e => e ▸ .inl ⟨ho, rfl⟩) (ih w)
  | buildId _ _ ih => intro w hw; exact (List.mem_cons.1 hw).elim (fun e => e ▸ .inr (.inl rfl)) (ih w)
  | buildIdAlone _ _ ih => intro w hw; exact (List.mem_cons.1 hw).elim (fun e => e ▸ .inr (.inl rfl)) (ih w)
  | alone h1 h2 _ ih => intro w hw; exact (List.mem_cons.1 hw).elim (fun e => e ▸ .inr (.inr ⟨h1, h2, rfl⟩)) (ih w)

theorem stripPrefix_eq (p s : Bytes) : stripPrefix p s = if p.isPrefixOf s then some (s.drop p.length) else none := by
  induction p generalizing s with
  | nil => simp [stripPrefix]
  | cons a p ih =>
    cases s with
    | nil => rfl
    | cons c s =>
      simp only [stripPrefix, List.isPrefixOf, Bool.and_eq_true, beq_iff_eq, List.length_cons, List.drop_succ_cons]
      by_cases h : a = c
      · simp [h, ih]
      · simp [h]

theorem inputsOf_snoc (ws : List Word) (w : Word) :
    inputsOf (ws ++ [w]) = inputsOf ws ++ ((inputOf w).map fun n => (n, asNeededAfter ws)).toList := by
  unfold inputsOf
  rw [List.zipIdx_append, List.filterMap_append]
  congr 1
  · have hc : ∀ l : List (Word × Nat), (∀ e ∈ l, e.2 ≤ ws.length) →
        l.filterMap (fun e => (inputOf e.1).map fun n => (n, asNeededAfter ((ws ++ [w]).take e.2))) =
        l.filterMap fun e => (inputOf e.1).map fun n => (n, asNeededAfter (ws.take e.2)) := by
      intro l
      induction l with
      | nil => intro _; rfl
      | cons e l ih =>
        intro hl
        rw [List.filterMap_cons, List.filterMap_cons, ih fun x hx => hl x (by simp [hx]),
          List.take_append_of_le_length (hl e (by simp))]
    apply hc
    intro e he
    have := (List.mem_zipIdx he).2.1
    omega
  · cases hi : inputOf w <;> simp [List.filterMap, hi]

theorem asNeededAfter_snoc (ws : List Word) (w : Word) : asNeededAfter (ws ++ [w]) =
    if w.1 = b!"--as-needed" then true else if w.1 = b!"--no-as-needed" then false else asNeededAfter ws := by
  unfold asNeededAfter
  rw [List.filterMap_append]
  by_cases h1 : w.1 = b!"--as-needed"
  · rw [if_pos h1]; simp [h1]
  · by_cases h2 : w.1 = b!"--no-as-needed"
    · rw [if_neg h1, if_pos h2]; simp [h2]
    · rw [if_neg h1, if_neg h2]; simp [h1, h2]

theorem valuesOf_snoc (o : Bytes) (ws : List Word) (w : Word) :
    valuesOf o (ws ++ [w]) = valuesOf o ws ++ (if w.1 = o then w.2 else none).toList := by
  unfold valuesOf
  rw [List.filterMap_append]
  cases h : (if w.1 = o then w.2 else none) <;> simp [List.filterMap, h]

theorem filterMap_one {α β : Type} (f : α → Option β) (a : α) : [a].filterMap f = (f a).toList := by
  rw [List.filterMap_cons]; cases f a <;> rfl

theorem mem_setInsert {l : List Bytes} {x d : Bytes} : d ∈ setInsert l x ↔ d ∈ l ∨ x = d := by
  unfold setInsert
  split
  · next h => constructor
              · exact .inl
              · rintro (h | rfl) <;> assumption
  · simp [eq_comm]

theorem stylesOf_snoc (ws : List Word) (w : Word) : stylesOf (ws ++ [w]) =
    stylesOf ws ++ (if b!"--hash-style=".isPrefixOf w.1 then HashStyle.fromStr (w.1.drop 13) else none).toList := by
  unfold stylesOf
  rw [List.filterMap_append, filterMap_one]

theorem buildIdsOf_snoc (ws : List Word) (w : Word) : buildIdsOf (ws ++ [w]) =
    buildIdsOf ws ++ (if w.1 = b!"--build-id" then
    match w.2 with
    | none => some .sha1
    | some v => BuildId.fromStr v
  else none).toList := by
  unfold buildIdsOf
  rw [List.filterMap_append, filterMap_one]
  rfl

theorem meets_step {canon : Bytes → Option Bytes} {ws : List Word} {app app' : App} {w : Word} (h : Meets canon ws app)
    (hw : WordForm w) (hs : applyWord canon app w = .ok app') : Meets canon (ws ++ [w]) app' := by
  obtain ⟨a, v⟩ := w
  obtain ⟨h1, h2, h3, h4, h5, h6, h7, h8, h9⟩ := h
  unfold applyWord at hs
  simp only at hs
  by_cases c1 : a = b!"--build-id"
  · subst c1
    simp only [if_true] at hs
    cases v with
    | none =>
      cases hs
      constructor <;>
      simp [valuesOf_snoc, stylesOf_snoc, buildIdsOf_snoc, asNeededAfter_snoc, inputsOf_snoc, h1, h2, h3, h4, h5, h6, h7, h8, h9, inputOf,
        valueOpts, flagOpts, List.isPrefixOf, dirOf]
    | some v =>
      simp only at hs
      cases hv : BuildId.fromStr v with
      | none => simp [hv] at hs
      | some b =>
        simp only [hv] at hs
        cases hs
        constructor <;>
        simp [valuesOf_snoc, stylesOf_snoc, buildIdsOf_snoc, asNeededAfter_snoc, inputsOf_snoc, h1, h2, h3, h4, h5, h6, h7, h8, h9, inputOf,
          valueOpts, flagOpts, List.isPrefixOf, dirOf, hv]
  rw [if_neg c1] at hs
  by_cases c2 : a = b!"-m"
  · subst c2
    rw [if_pos rfl] at hs
    obtain ⟨v, rfl⟩ : ∃ x, v = some x := by simpa [WordForm, valueOpts, Option.isSome_iff_exists] using hw
    simp only at hs
    cases hv : Emulation.fromStr v with
    | none => simp [hv] at hs
    | some b =>
      simp only [hv] at hs
      cases hs
      constructor <;>
      simp [valuesOf_snoc, stylesOf_snoc, buildIdsOf_snoc, asNeededAfter_snoc, inputsOf_snoc, h1, h2, h3, h4, h5, h6, h7, h8, h9, inputOf,
        valueOpts, flagOpts, List.isPrefixOf, dirOf]
  rw [if_neg c2] at hs
  by_cases c3 : a = b!"-o"
  · subst c3
    rw [if_pos rfl] at hs
    obtain ⟨v, rfl⟩ : ∃ x, v = some x := by simpa [WordForm, valueOpts, Option.isSome_iff_exists] using hw
    cases hs
    constructor <;>
    simp [valuesOf_snoc, stylesOf_snoc, buildIdsOf_snoc, asNeededAfter_snoc, inputsOf_snoc, h1, h2, h3, h4, h5, h6, h7, h8, h9, inputOf,
      valueOpts, flagOpts, List.isPrefixOf, dirOf]
  rw [if_neg c3] at hs
  by_cases c4 : a = b!"--eh-frame-hdr"
  · subst c4
    rw [if_pos rfl] at hs
    obtain rfl : v = none := by simpa [WordForm, valueOpts] using hw
    cases hs
    constructor <;>
    simp [valuesOf_snoc, stylesOf_snoc, buildIdsOf_snoc, asNeededAfter_snoc, inputsOf_snoc, h1, h2, h3, h4, h5, h6, h7, h8, h9, inputOf,
      valueOpts, flagOpts, List.isPrefixOf, dirOf]
  rw [if_neg c4] at hs
  by_cases c5 : a = b!"--help" ∨ a = b!"-h"
  · rw [if_pos c5] at hs
    obtain rfl : v = none := by rcases c5 with rfl | rfl <;> simpa [WordForm, valueOpts] using hw
    cases hs
    rcases c5 with rfl | rfl
    · constructor <;>
      simp [valuesOf_snoc, stylesOf_snoc, buildIdsOf_snoc, asNeededAfter_snoc, inputsOf_snoc, h1, h2, h3, h4, h5, h6, h7, h8, h9, inputOf,
        valueOpts, flagOpts, List.isPrefixOf, dirOf]
    · constructor <;>
      simp [valuesOf_snoc, stylesOf_snoc, buildIdsOf_snoc, asNeededAfter_snoc, inputsOf_snoc, h1, h2, h3, h4, h5, h6, h7, h8, h9, inputOf,
        valueOpts, flagOpts, List.isPrefixOf, dirOf]
  rw [if_neg c5] at hs
  by_cases c6 : a = b!"-dynamic-linker"
  · subst c6
    rw [if_pos rfl] at hs
    obtain ⟨v, rfl⟩ : ∃ x, v = some x := by simpa [WordForm, valueOpts, Option.isSome_iff_exists] using hw
    cases hs
    constructor <;>
    simp [valuesOf_snoc, stylesOf_snoc, buildIdsOf_snoc, asNeededAfter_snoc, inputsOf_snoc, h1, h2, h3, h4, h5, h6, h7, h8, h9, inputOf,
      valueOpts, flagOpts, List.isPrefixOf, dirOf]
  rw [if_neg c6] at hs
  by_cases c7 : a = b!"-L"
  · subst c7
    rw [if_pos rfl] at hs
    obtain ⟨v, rfl⟩ : ∃ x, v = some x := by simpa [WordForm, valueOpts, Option.isSome_iff_exists] using hw
    cases hs
    constructor <;>
    simp [valuesOf_snoc, stylesOf_snoc, buildIdsOf_snoc, asNeededAfter_snoc, inputsOf_snoc, h1, h2, h3, h4, h5, h6, h7, h8, h9, inputOf,
      valueOpts, flagOpts, List.isPrefixOf, dirOf, mem_setInsert, or_and_right, exists_or]
  rw [if_neg c7] at hs
  by_cases c8 : a = b!"-l"
  · subst c8
    rw [if_pos rfl] at hs
    obtain ⟨v, rfl⟩ : ∃ x, v = some x := by simpa [WordForm, valueOpts, Option.isSome_iff_exists] using hw
    cases hs
    constructor <;>
    simp [valuesOf_snoc, stylesOf_snoc, buildIdsOf_snoc, asNeededAfter_snoc, inputsOf_snoc, h1, h2, h3, h4, h5, h6, h7, h8, h9, inputOf,
      valueOpts, flagOpts, List.isPrefixOf, dirOf]
  rw [if_neg c8] at hs
  by_cases c9 : a = b!"-z"
  · subst c9
    rw [if_pos rfl] at hs
    obtain ⟨v, rfl⟩ : ∃ x, v = some x := by simpa [WordForm, valueOpts, Option.isSome_iff_exists] using hw
    cases hs
    constructor <;>
    simp [valuesOf_snoc, stylesOf_snoc, buildIdsOf_snoc, asNeededAfter_snoc, inputsOf_snoc, h1, h2, h3, h4, h5, h6, h7, h8, h9, inputOf,
      valueOpts, flagOpts, List.isPrefixOf, dirOf]
  rw [if_neg c9] at hs
  by_cases c10 : a = b!"--as-needed"
  · subst c10
    rw [if_pos rfl] at hs
    obtain rfl : v = none := by simpa [WordForm, valueOpts] using hw
    cases hs
    constructor <;>
    simp [valuesOf_snoc, stylesOf_snoc, buildIdsOf_snoc, asNeededAfter_snoc, inputsOf_snoc, h1, h2, h3, h4, h5, h6, h7, h8, h9, inputOf,
      valueOpts, flagOpts, List.isPrefixOf, dirOf]
  rw [if_neg c10] at hs
  by_cases c11 : a = b!"--no-as-needed"
  · subst c11
    rw [if_pos rfl] at hs
    obtain rfl : v = none := by simpa [WordForm, valueOpts] using hw
    cases hs
    constructor <;>
    simp [valuesOf_snoc, stylesOf_snoc, buildIdsOf_snoc, asNeededAfter_snoc, inputsOf_snoc, h1, h2, h3, h4, h5, h6, h7, h8, h9, inputOf,
      valueOpts, flagOpts, List.isPrefixOf, dirOf]
  rw [if_neg c11] at hs
  by_cases c12 : a = b!"--start-group" ∨ a = b!"--end-group"
  · rw [if_pos c12] at hs
    obtain rfl : v = none := by rcases c12 with rfl | rfl <;> simpa [WordForm, valueOpts] using hw
    cases hs
    rcases c12 with rfl | rfl
    · constructor <;>
      simp [valuesOf_snoc, stylesOf_snoc, buildIdsOf_snoc, asNeededAfter_snoc, inputsOf_snoc, h1, h2, h3, h4, h5, h6, h7, h8, h9, inputOf,
        valueOpts, flagOpts, List.isPrefixOf, dirOf]
    · constructor <;>
      simp [valuesOf_snoc, stylesOf_snoc, buildIdsOf_snoc, asNeededAfter_snoc, inputsOf_snoc, h1, h2, h3, h4, h5, h6, h7, h8, h9, inputOf,
        valueOpts, flagOpts, List.isPrefixOf, dirOf]
  rw [if_neg c12] at hs
  obtain rfl : v = none := by
    rcases hw with hw | hw | hw
    · exfalso; simp [valueOpts, c2, c3, c6, c7, c8, c9] at hw
    · exact absurd hw c1
    · exact hw.2.2
  simp only [not_or] at c5 c12
  unfold special at hs
  simp only [stripPrefix_eq] at hs
  by_cases p1 : [45, 76].isPrefixOf a = true
  · rw [if_pos p1] at hs
    simp only [List.length_cons, List.length_nil] at hs
    have q1 : [45, 45, 104, 97, 115, 104, 45, 115, 116, 121, 108, 101, 61].isPrefixOf a = false := by
      obtain ⟨t, rfl⟩ := List.isPrefixOf_iff_prefix.1 p1; simp [List.isPrefixOf]
    cases hd : canon (a.drop 2) with
    | none => simp [hd] at hs
    | some d =>
      simp only [hd] at hs
      cases hs
      constructor <;>
      simp [valuesOf_snoc, stylesOf_snoc, buildIdsOf_snoc, asNeededAfter_snoc, inputsOf_snoc, h1, h2, h3, h4, h5, h6, h7, h8, h9, inputOf,
        dirOf, mem_setInsert, or_and_right, exists_or, p1, q1, hd, c1, c2, c3, c4, c5, c6, c7, c8, c9, c10, c11, c12, -List.isPrefixOf_iff_prefix, Ne.symm c4, Ne.symm c5.1, Ne.symm c5.2]
  rw [if_neg p1] at hs
  simp only at hs
  by_cases p2 : [45, 108].isPrefixOf a = true
  · rw [if_pos p2] at hs
    simp only [List.length_cons, List.length_nil] at hs
    have q1 : [45, 45, 104, 97, 115, 104, 45, 115, 116, 121, 108, 101, 61].isPrefixOf a = false := by
      obtain ⟨t, rfl⟩ := List.isPrefixOf_iff_prefix.1 p2; simp [List.isPrefixOf]
    cases hs
    constructor <;>
    simp [valuesOf_snoc, stylesOf_snoc, buildIdsOf_snoc, asNeededAfter_snoc, inputsOf_snoc, h1, h2, h3, h4, h5, h6, h7, h8, h9, inputOf,
      dirOf, valueOpts, flagOpts, p1, p2, q1, c1, c2, c3, c4, c5, c6, c7, c8, c9, c10, c11, c12, -List.isPrefixOf_iff_prefix, Ne.symm c4, Ne.symm c5.1, Ne.symm c5.2]
  rw [if_neg p2] at hs
  simp only at hs
  by_cases p3 : [45, 45, 104, 97, 115, 104, 45, 115, 116, 121, 108, 101, 61].isPrefixOf a = true
  · rw [if_pos p3] at hs
    simp only [List.length_cons, List.length_nil] at hs
    cases hd : HashStyle.fromStr (a.drop 13) with
    | none => simp [hd] at hs
    | some d =>
      simp only [hd] at hs
      cases hs
      constructor <;>
      simp [valuesOf_snoc, stylesOf_snoc, buildIdsOf_snoc, asNeededAfter_snoc, inputsOf_snoc, h1, h2, h3, h4, h5, h6, h7, h8, h9, inputOf,
        dirOf, valueOpts, flagOpts, p1, p2, p3, hd, c1, c2, c3, c4, c5, c6, c7, c8, c9, c10, c11, c12, -List.isPrefixOf_iff_prefix, Ne.symm c4, Ne.symm c5.1, Ne.symm c5.2]
  · rw [if_neg p3] at hs
    cases hs
    constructor <;>
    simp [valuesOf_snoc, stylesOf_snoc, buildIdsOf_snoc, asNeededAfter_snoc, inputsOf_snoc, h1, h2, h3, h4, h5, h6, h7, h8, h9, inputOf,
      dirOf, valueOpts, flagOpts, p1, p2, p3, c1, c2, c3, c4, c5, c6, c7, c8, c9, c10, c11, c12, -List.isPrefixOf_iff_prefix, Ne.symm c4, Ne.symm c5.1, Ne.symm c5.2]

theorem meets_init (canon : Bytes → Option Bytes) : Meets canon [] {} :=
  ⟨rfl, rfl, rfl, rfl, by simp, by simp, rfl, rfl, by simp⟩

theorem meets_fold {canon : Bytes → Option Bytes} {pre ws : List Word} {app app' : App} (h : Meets canon pre app)
    (hw : ∀ w ∈ ws, WordForm w) (hs : foldM' (applyWord canon) app ws = .ok app') : Meets canon (pre ++ ws) app' := by
  induction ws generalizing pre app with
  | nil => cases hs; simpa using h
  | cons w ws ih =>
    rw [foldM'_cons, bind_ok] at hs
    obtain ⟨a1, h1, h2⟩ := hs
    have := ih (meets_step h (hw w (by simp)) h1) (fun x hx => hw x (by simp [hx])) h2
    simpa using this

theorem emulation_iff (v : Bytes) : (Emulation.fromStr v).isSome ↔ v = b!"elf_x86_64" := by
  unfold Emulation.fromStr; split <;> simp_all

/-- a word is accepted exactly when its value is understood -/
theorem applyWord_ok {canon : Bytes → Option Bytes} {app : App} {w : Word} (hw : WordForm w) :
    (∃ app', applyWord canon app w = .ok app') ↔ WordOk canon w := by
  obtain ⟨a, v⟩ := w
  unfold applyWord WordOk
  simp only
  by_cases c1 : a = b!"--build-id"
  · subst c1
    cases v with
    | none => simp [List.isPrefixOf]
    | some v => cases hv : BuildId.fromStr v <;> simp [List.isPrefixOf, hv]
  rw [if_neg c1]
  by_cases c2 : a = b!"-m"
  · subst c2
    obtain ⟨v, rfl⟩ : ∃ x, v = some x := by simpa [WordForm, valueOpts, Option.isSome_iff_exists] using hw
    have := emulation_iff v
    cases hv : Emulation.fromStr v <;> simp [hv] at this <;> simp only [hv] <;> simp [this, List.isPrefixOf]
  rw [if_neg c2]
  by_cases c3 : a = b!"-o"
  · subst c3; simp [List.isPrefixOf]
  rw [if_neg c3]
  by_cases c4 : a = b!"--eh-frame-hdr"
  · subst c4; simp [List.isPrefixOf]
  rw [if_neg c4]
  by_cases c5 : a = b!"--help" ∨ a = b!"-h"
  · rcases c5 with rfl | rfl <;> simp [List.isPrefixOf]
  rw [if_neg c5]
  by_cases c6 : a = b!"-dynamic-linker"
  · subst c6; simp [List.isPrefixOf]
  rw [if_neg c6]
  by_cases c7 : a = b!"-L"
  · subst c7; simp [List.isPrefixOf]
  rw [if_neg c7]
  by_cases c8 : a = b!"-l"
  · subst c8; simp [List.isPrefixOf]
  rw [if_neg c8]
  by_cases c9 : a = b!"-z"
  · subst c9; simp [List.isPrefixOf]
  rw [if_neg c9]
  by_cases c10 : a = b!"--as-needed"
  · subst c10; simp [List.isPrefixOf]
  rw [if_neg c10]
  by_cases c11 : a = b!"--no-as-needed"
  · subst c11; simp [List.isPrefixOf]
  rw [if_neg c11]
  by_cases c12 : a = b!"--start-group" ∨ a = b!"--end-group"
  · rcases c12 with rfl | rfl <;> simp [List.isPrefixOf]
  rw [if_neg c12]
  unfold special
  simp only [stripPrefix_eq]
  by_cases p1 : [45, 76].isPrefixOf a = true
  · have q1 : [45, 45, 104, 97, 115, 104, 45, 115, 116, 121, 108, 101, 61].isPrefixOf a = false := by
      obtain ⟨t, rfl⟩ := List.isPrefixOf_iff_prefix.1 p1; simp [List.isPrefixOf]
    rw [if_pos p1]
    simp only [List.length_cons, List.length_nil]
    cases hd : canon (a.drop 2) <;> simp [p1, q1, c1, c2, c7, hd, -List.isPrefixOf_iff_prefix]
  rw [if_neg p1]
  simp only
  by_cases p2 : [45, 108].isPrefixOf a = true
  · have q1 : [45, 45, 104, 97, 115, 104, 45, 115, 116, 121, 108, 101, 61].isPrefixOf a = false := by
      obtain ⟨t, rfl⟩ := List.isPrefixOf_iff_prefix.1 p2; simp [List.isPrefixOf]
    rw [if_pos p2]
    simp [p1, q1, c1, c2, -List.isPrefixOf_iff_prefix]
  rw [if_neg p2]
  simp only
  by_cases p3 : [45, 45, 104, 97, 115, 104, 45, 115, 116, 121, 108, 101, 61].isPrefixOf a = true
  · rw [if_pos p3]
    simp only [List.length_cons, List.length_nil]
    cases hd : HashStyle.fromStr (a.drop 13) <;> simp [p1, p3, c1, c2, hd, -List.isPrefixOf_iff_prefix]
  · rw [if_neg p3]
    simp [p1, p3, c1, c2, -List.isPrefixOf_iff_prefix]

theorem fold_ok {canon : Bytes → Option Bytes} {ws : List Word} (hw : ∀ w ∈ ws, WordForm w) (app : App) :
    (∃ app', foldM' (applyWord canon) app ws = .ok app') ↔ ∀ w ∈ ws, WordOk canon w := by
  induction ws generalizing app with
  | nil => exact ⟨fun _ w hw => by simp at hw, fun _ => ⟨app, rfl⟩⟩
  | cons w ws ih =>
    have hw' : ∀ w ∈ ws, WordForm w := fun x hx => hw x (by simp [hx])
    constructor
    · rintro ⟨app', h⟩ x hx
      rw [foldM'_cons, bind_ok] at h
      obtain ⟨a1, h1, h2⟩ := h
      rcases List.mem_cons.1 hx with rfl | hx
      · exact (applyWord_ok (hw x (by simp))).1 ⟨a1, h1⟩
      · exact (ih hw' a1).1 ⟨app', h2⟩ x hx
    · intro h
      obtain ⟨a1, h1⟩ := (applyWord_ok (app := app) (hw w (by simp))).2 (h w (by simp))
      obtain ⟨a2, h2⟩ := (ih hw' a1).2 fun x hx => h x (by simp [hx])
      exact ⟨a2, by rw [foldM'_cons, h1]; exact h2⟩

theorem handleArgs_words {canon : Bytes → Option Bytes} {args : List Bytes} {ws : List Word} (h : Reads args ws) (app : App) :
    handleArgs canon args app = foldM' (applyWord canon) app ws := by
  have := handleArgs_reads (canon := canon) h [] (by simp) app
  rw [List.append_nil] at this
  rw [this]
  cases foldM' (applyWord canon) app ws <;> rfl

/-- **C67**: an argument list is accepted exactly when it consists of options, each with its value if
it takes one, and inputs, and all values are understood. -/
theorem C67_accepted (canon : Bytes → Option Bytes) (args : List Bytes) :
    (∃ app, handleArgs canon args {} = .ok app) ↔ ∃ ws, Reads args ws ∧ ∀ w ∈ ws, WordOk canon w := by
  constructor
  · rintro ⟨app, h⟩
    rcases reads_total _ args (Nat.le_refl _) with ⟨ws, hr⟩ | ⟨pre, o, ws, rfl, ho, hr⟩
    · exact ⟨ws, hr, (fold_ok hr.form {}).1 ⟨app, by rw [← handleArgs_words hr]; exact h⟩⟩
    · rw [handleArgs_reads hr [o] (by
        intro v hv; cases hv
        simp only [valueOpts, List.mem_cons, List.not_mem_nil, or_false] at ho
        rcases ho with rfl | rfl | rfl | rfl | rfl | rfl <;> rfl), bind_ok] at h
      obtain ⟨a1, _, h2⟩ := h
      rw [handleArgs_dangling canon ho] at h2
      cases h2
  · rintro ⟨ws, hr, hw⟩
    obtain ⟨app, h⟩ := (fold_ok hr.form {}).2 hw
    exact ⟨app, by rw [handleArgs_words hr]; exact h⟩

/-- **C67**: what the words mean: the last `-o`, `-dynamic-linker`, `--hash-style=` and `--build-id`
win, flags are set when given, and everything else is an input, in order, with the as-needed state
at its place. -/
theorem C67_meaning (canon : Bytes → Option Bytes) (args : List Bytes) (app : App) (h : handleArgs canon args {} = .ok app)
    (ws : List Word) (hr : Reads args ws) : Meets canon ws app := by
  rw [handleArgs_words hr] at h
  simpa using meets_fold (meets_init canon) hr.form h

/-- **C67**: an option without its value is an error that names the option. -/
theorem C67_missing_value (canon : Bytes → Option Bytes) (args : List Bytes) (ws : List Word) (o : Bytes) (hr : Reads args ws)
    (hw : ∀ w ∈ ws, WordOk canon w) (ho : o ∈ valueOpts) : handleArgs canon (args ++ [o]) {} = .error (.missing o) := by
  obtain ⟨app, h⟩ := (fold_ok hr.form {}).2 hw
  rw [handleArgs_reads hr [o] (by
        intro v hv; cases hv
        simp only [valueOpts, List.mem_cons, List.not_mem_nil, or_false] at ho
        rcases ho with rfl | rfl | rfl | rfl | rfl | rfl <;> rfl), h]
  exact handleArgs_dangling canon ho app

/-- a command line with every kind of word -/
example : Reads [b!"-o", b!"-L", b!"--build-id", b!"--as-needed", b!"a.o", b!"-lc", b!"--build-id", b!"0xff", b!"--hash-style=gnu"]
    [(b!"-o", some b!"-L"), (b!"--build-id", none), (b!"--as-needed", none), (b!"a.o", none), (b!"-lc", none),
     (b!"--build-id", some b!"0xff"), (b!"--hash-style=gnu", none)] ∧
    handleArgs (fun d => some d) [b!"-o", b!"-L", b!"--build-id", b!"--as-needed", b!"a.o", b!"-lc", b!"--build-id", b!"0xff",
      b!"--hash-style=gnu"] {} =
      .ok { output := b!"-L", buildId := some (.hex b!"ff"), hashStyle := .gnu, asNeeded := true,
            inputs := [(b!"a.o", true), (b!"c", true)] } := by
  refine ⟨?_, by decide +kernel⟩
  exact .value (by decide) (.buildIdAlone (by decide) (.alone (by decide) (by decide) (.alone (by decide) (by decide)
    (.alone (by decide) (by decide) (.buildId (by decide) (.alone (by decide) (by decide) .nil))))))

/-- **C68**: `--build-id` takes the next argument as its style exactly when there is one that does not
start with `-`; otherwise the style is SHA1 and the next argument is read on its own. -/
theorem C68_build_id (canon : Bytes → Option Bytes) (rest : List Bytes) (app : App) :
    handleArgs canon (b!"--build-id" :: rest) app =
      match rest with
      | [] => .ok { app with buildId := some .sha1 }
      | v :: rest' =>
        if v.head? = some 45 then handleArgs canon rest { app with buildId := some .sha1 }
        else
          match BuildId.fromStr v with
          | some b => handleArgs canon rest' { app with buildId := some b }
          | none => .error (.badValue v) := by
  cases rest with
  | nil => rfl
  | cons v rest' =>
    rw [handleArgs.eq_def]
    simp only
    rw [if_pos trivial]
    by_cases h : v.head? = some 45
    · rw [if_neg (by simp [startsDash, h]), if_pos h]
    · rw [if_pos (by simp [startsDash, h]), if_neg h]
      cases BuildId.fromStr v <;> rfl

/-- both cases occur: a style is taken, an option is not -/
example : (handleArgs some [b!"--build-id", b!"md5"] {}, handleArgs some [b!"--build-id", b!"-h"] {}) =
    (.ok { buildId := some .md5 }, .ok { buildId := some .sha1, help := true }) := by decide +kernel

/-- **C68**: the last `--build-id` decides. -/
theorem C68_last_build_id (canon : Bytes → Option Bytes) (args : List Bytes) (app : App) (h : handleArgs canon args {} = .ok app)
    (ws : List Word) (hr : Reads args ws) : app.buildId = (buildIdsOf ws).getLast? := (C67_meaning canon args app h ws hr).buildId

theorem stripPrefix_append (p s : Bytes) : stripPrefix p (p ++ s) = some s := by
  induction p with
  | nil => rfl
  | cons c p ih => simp [stripPrefix, ih]

theorem stripPrefix_some {p s r : Bytes} (h : stripPrefix p s = some r) : s = p ++ r := by
  induction p generalizing s with
  | nil => exact Option.some.inj h
  | cons c p ih =>
    cases s with
    | nil => simp [stripPrefix] at h
    | cons d s =>
      unfold stripPrefix at h
      split at h
      · next e => rw [ih h, e]; rfl
      · simp at h

/-- **C68**: the styles are `uuid`, `sha1`, `md5` and any text behind `0x`, and each means itself; everything else is rejected. -/
theorem C68_values (v : Bytes) (b : BuildId) : BuildId.fromStr v = some b ↔
    (v = b!"uuid" ∧ b = .uuid) ∨ (v = b!"sha1" ∧ b = .sha1) ∨ (v = b!"md5" ∧ b = .md5) ∨ ∃ s, v = b!"0x" ++ s ∧ b = .hex s := by
  constructor
  · intro h
    unfold BuildId.fromStr at h
    by_cases h1 : v = b!"uuid"
    · rw [if_pos h1] at h; exact .inl ⟨h1, (Option.some.inj h).symm⟩
    rw [if_neg h1] at h
    by_cases h2 : v = b!"sha1"
    · rw [if_pos h2] at h; exact .inr (.inl ⟨h2, (Option.some.inj h).symm⟩)
    rw [if_neg h2] at h
    by_cases h3 : v = b!"md5"
    · rw [if_pos h3] at h; exact .inr (.inr (.inl ⟨h3, (Option.some.inj h).symm⟩))
    rw [if_neg h3] at h
    obtain ⟨s, hs, e⟩ := Option.map_eq_some_iff.1 h
    exact .inr (.inr (.inr ⟨s, stripPrefix_some hs, e.symm⟩))
  · rintro (⟨rfl, rfl⟩ | ⟨rfl, rfl⟩ | ⟨rfl, rfl⟩ | ⟨s, rfl, rfl⟩)
    · rfl
    · rfl
    · rfl
    · unfold BuildId.fromStr
      rw [stripPrefix_append]
      simp

example : BuildId.fromStr b!"0x1f" = some (.hex b!"1f") ∧ BuildId.fromStr b!"SHA1" = none := by decide

/-! ### C69 -/

/-- **C69** is violated: `--hash-style STYLE`, as the help text gives it, leaves the style at its
default and turns both words into inputs. -/
theorem C69_hash_style_violated (canon : Bytes → Option Bytes) :
    ∀ style ∈ [b!"sysv", b!"gnu", b!"both"], handleArgs canon [b!"--hash-style", style] {} =
      .ok { hashStyle := .both, inputs := [(b!"--hash-style", false), (style, false)] } := by
  intro style hs
  simp only [List.mem_cons, List.not_mem_nil, or_false] at hs
  rcases hs with rfl | rfl | rfl <;> rfl

/-- **C69**, the part that holds: the form `--hash-style=STYLE` selects the style or is rejected.
What is missing: the documented form with a separate value (`C69_hash_style_violated`). -/
theorem C69_hash_style_partial (canon : Bytes → Option Bytes) (style : Bytes) (rest : List Bytes) (app : App) :
    handleArgs canon ((b!"--hash-style=" ++ style) :: rest) app =
      if style = b!"sysv" then handleArgs canon rest { app with hashStyle := .sysv }
      else if style = b!"gnu" then handleArgs canon rest { app with hashStyle := .gnu }
      else if style = b!"both" then handleArgs canon rest { app with hashStyle := .both }
      else .error (.badValue style) := by
  have : ∀ app, special canon (b!"--hash-style=" ++ style) app = match HashStyle.fromStr style with
      | some h => .ok { app with hashStyle := h }
      | none => .error (.badValue style) := by
    intro app
    unfold special
    simp [stripPrefix]
    rfl
  rw [handleArgs.eq_def]
  simp only [this]
  repeat rw [if_neg (by simp)]
  unfold HashStyle.fromStr
  by_cases h1 : style = b!"sysv"
  · simp [h1]
  by_cases h2 : style = b!"gnu"
  · simp [h2]
  by_cases h3 : style = b!"both"
  · simp [h3]
  · simp [h1, h2, h3]

/-- the form with `=` at work -/
example : handleArgs some [b!"--hash-style=gnu", b!"a.o"] {} = .ok { hashStyle := .gnu, inputs := [(b!"a.o", false)] } := by
  decide +kernel

/-! ### C71 -/

/-- **C71**: a file shorter than 18 bytes is text; otherwise its first 18 bytes decide: archive magic,
ELF magic with type 3 (little endian at offset 16), ELF magic with another type, or text. -/
theorem C71_file_type (c : Bytes) :
    (fileType c = .archive ↔ 18 ≤ c.length ∧ c.take 8 = b!"!<arch>" ++ [10]) ∧
    (fileType c = .elfSharedLib ↔ 18 ≤ c.length ∧ c.take 4 = [0x7f] ++ b!"ELF" ∧ c[16]? = some 3 ∧ c[17]? = some 0) ∧
    (fileType c = .elfObject ↔ 18 ≤ c.length ∧ c.take 4 = [0x7f] ++ b!"ELF" ∧ ¬ (c[16]? = some 3 ∧ c[17]? = some 0)) ∧
    (fileType c = .text ↔ c.length < 18 ∨ (c.take 8 ≠ b!"!<arch>" ++ [10] ∧ c.take 4 ≠ [0x7f] ++ b!"ELF")) := by
  by_cases hl : c.length < 18
  · unfold fileType
    rw [if_pos hl]
    have : ¬ 18 ≤ c.length := by omega
    simp [hl, this]
  · have h18 : 18 ≤ c.length := by omega
    have pre : ∀ p : Bytes, p.length ≤ 18 → (p.isPrefixOf (c.take 18) = true ↔ c.take p.length = p) := by
      intro p hp
      rw [List.isPrefixOf_iff_prefix, List.prefix_iff_eq_take, List.take_take, Nat.min_eq_left hp, eq_comm]
    have hend : (c.take 18).drop 16 = [3, 0] ↔ c[16]? = some 3 ∧ c[17]? = some 0 := by
      obtain ⟨h16, h17⟩ : 16 < c.length ∧ 17 < c.length := by omega
      have : (c.take 18).drop 16 = [c[16], c[17]] := by
        rw [List.drop_take, show 18 - 16 = 2 from rfl, List.drop_eq_getElem_cons h16, List.drop_eq_getElem_cons h17]
        rfl
      rw [this]
      simp [h16, h17]
    have hs : fileType c = if c.take 8 = b!"!<arch>" ++ [10] then .archive else if c.take 4 = [0x7f] ++ b!"ELF" then
        (if c[16]? = some 3 ∧ c[17]? = some 0 then .elfSharedLib else .elfObject) else .text := by
      unfold fileType
      rw [if_neg hl]
      simp only
      have e1 := pre arMagic (by decide)
      have e2 := pre [0x7f, 0x45, 0x4c, 0x46] (by decide)
      have e3 : ([UInt8.ofNat ET_DYN, UInt8.ofNat (ET_DYN / 256)] : Bytes) = [3, 0] := by decide
      rw [e3]
      simp only [e1, e2, hend]
      rfl
    have hx : c.take 4 = [0x7f] ++ b!"ELF" → c.take 8 ≠ b!"!<arch>" ++ [10] := by
      intro h4 h8
      have : (c.take 8).take 4 = c.take 4 := by rw [List.take_take]; rfl
      rw [h8, h4] at this
      exact absurd this (by decide)
    rw [hs]
    by_cases a1 : c.take 8 = b!"!<arch>" ++ [10]
    · have : c.take 4 ≠ [0x7f] ++ b!"ELF" := fun h => hx h a1
      simp only [if_pos a1]
      simp only [a1, this, h18, hl]
      simp
    · simp only [if_neg a1]
      by_cases a2 : c.take 4 = [0x7f] ++ b!"ELF"
      · simp only [if_pos a2]
        by_cases a3 : c[16]? = some 3 ∧ c[17]? = some 0
        · simp only [if_pos a3]; simp [a1, a2, a3, h18, hl]; exact a1
        · simp only [if_neg a3]
          simp only [a1, a2, a3, h18, hl]
          simp
      · simp only [if_neg a2]; simp only [a1, a2, h18, hl]; simp; exact ⟨a1, a2⟩

/-- each kind occurs -/
example : (fileType (b!"!<arch>" ++ List.replicate 11 10), fileType ([0x7f] ++ b!"ELF" ++ List.replicate 12 0 ++ [3, 0, 62]),
    fileType ([0x7f] ++ b!"ELF" ++ List.replicate 12 0 ++ [1, 0, 62]), fileType b!"GROUP ( libc.so.6 )", fileType ([0x7f] ++ b!"ELF")) =
    (.archive, .elfSharedLib, .elfObject, .text, .text) := by decide +kernel

/-! ### C72 -/

/-- the files a name stands for: itself, or in a directory under its own name, as shared library, or
as archive -/
def Candidate (fs : Fs) (dirs : List Bytes) (lib p : Bytes) : Prop :=
  fs.isFile p = true ∧ (p = lib ∨ ∃ d ∈ dirs, p = join d lib ∨ p = join d (libName lib b!"so") ∨ p = join d (libName lib b!"a"))

theorem searchDirs_some {fs : Fs} {lib kind : Bytes} {dirs : List Bytes} {found : Option Bytes} {p : Bytes}
    (h : searchDirs fs lib kind dirs found = some p) :
    found = some p ∨ fs.isFile p = true ∧ ∃ d ∈ dirs, p = join d lib ∨ p = join d (libName lib kind) := by
  induction dirs generalizing found with
  | nil => exact .inl h
  | cons d dirs ih =>
    rw [searchDirs] at h
    simp only at h
    split at h
    · next hf => cases h; exact .inr ⟨hf, d, by simp, .inl rfl⟩
    · rcases ih h with e | ⟨h1, d', hd', h2⟩
      · split at e
        · next hf => cases e; exact .inr ⟨hf, d, by simp, .inr rfl⟩
        · exact .inl e
      · exact .inr ⟨h1, d', by simp [hd'], h2⟩

theorem searchDirs_none {fs : Fs} {lib kind : Bytes} {dirs : List Bytes} {found : Option Bytes} :
    searchDirs fs lib kind dirs found = none ↔
      found = none ∧ ∀ d ∈ dirs, fs.isFile (join d lib) = false ∧ fs.isFile (join d (libName lib kind)) = false := by
  induction dirs generalizing found with
  | nil => simp [searchDirs]
  | cons d dirs ih =>
    rw [searchDirs]
    simp only
    by_cases h1 : fs.isFile (join d lib) = true
    · rw [if_pos h1]; simp [h1]
    · rw [if_neg h1, ih]
      by_cases h2 : fs.isFile (join d (libName lib kind)) = true
      · simp [h2]
      · rw [if_neg h2]; simp [h1, h2]

/-- **C72**, the part that holds: an input is found exactly when there is a file it stands for, and
the file taken is one of those; if there is only one, the order does not matter. What is missing: of
several candidates in different directories not the first in `-L` order is taken
(`C72_first_directory_violated`), and which one depends on the iteration order of a hash set
(`C72_order_violated`). -/
theorem C72_search_partial (fs : Fs) (dirs : List Bytes) (lib : Bytes) :
    (∀ p, findInput fs dirs lib = some p → Candidate fs dirs lib p) ∧
    (findInput fs dirs lib = none ↔ ∀ p, ¬ Candidate fs dirs lib p) ∧
    (∀ p dirs', dirs'.Perm dirs → Candidate fs dirs lib p → (∀ q, Candidate fs dirs lib q → q = p) →
      findInput fs dirs' lib = some p) := by
  have sound : ∀ dirs p, findInput fs dirs lib = some p → Candidate fs dirs lib p := by
    intro dirs p h
    unfold findInput at h
    simp only at h
    by_cases h1 : fs.isFile lib = true
    · simp [h1] at h; subst h; exact ⟨h1, .inl rfl⟩
    · simp only [h1, Bool.false_eq_true, if_false, Option.isSome_none] at h
      split at h
      · rcases searchDirs_some h with e | ⟨a, d, hd, b⟩
        · cases e
        · exact ⟨a, .inr ⟨d, hd, by rcases b with b | b <;> simp [b]⟩⟩
      · rcases searchDirs_some h with e | ⟨a, d, hd, b⟩
        · cases e
        · exact ⟨a, .inr ⟨d, hd, by rcases b with b | b <;> simp [b]⟩⟩
  have complete : ∀ dirs, findInput fs dirs lib = none ↔ ∀ p, ¬ Candidate fs dirs lib p := by
    intro dirs
    unfold findInput
    simp only
    by_cases h1 : fs.isFile lib = true
    · simp only [h1, if_true, Option.isSome_some, reduceCtorEq, false_iff]
      exact fun h => h lib ⟨h1, .inl rfl⟩
    · simp only [h1, Bool.false_eq_true, if_false, Option.isSome_none]
      constructor
      · intro h p ⟨hp, hc⟩
        split at h
        · next hs => rw [h] at hs; cases hs
        · next hs =>
          have hs : searchDirs fs lib b!"so" dirs none = none := by simpa using hs
          rcases hc with rfl | ⟨d, hd, rfl | rfl | rfl⟩
          · exact h1 hp
          · rw [((searchDirs_none.1 h).2 d hd).1] at hp; cases hp
          · rw [((searchDirs_none.1 hs).2 d hd).2] at hp; cases hp
          · rw [((searchDirs_none.1 h).2 d hd).2] at hp; cases hp
      · intro h
        have hd : ∀ d ∈ dirs, fs.isFile (join d lib) = false ∧ fs.isFile (join d (libName lib b!"so")) = false ∧
            fs.isFile (join d (libName lib b!"a")) = false := by
          intro d hd
          refine ⟨?_, ?_, ?_⟩
          · exact Bool.eq_false_iff.2 fun e => h _ ⟨e, .inr ⟨d, hd, .inl rfl⟩⟩
          · exact Bool.eq_false_iff.2 fun e => h _ ⟨e, .inr ⟨d, hd, .inr (.inl rfl)⟩⟩
          · exact Bool.eq_false_iff.2 fun e => h _ ⟨e, .inr ⟨d, hd, .inr (.inr rfl)⟩⟩
        rw [(searchDirs_none (kind := b!"so")).2 ⟨rfl, fun d h => ⟨(hd d h).1, (hd d h).2.1⟩⟩,
          (searchDirs_none (kind := b!"a")).2 ⟨rfl, fun d h => ⟨(hd d h).1, (hd d h).2.2⟩⟩]
        rfl
  refine ⟨sound dirs, complete dirs, ?_⟩
  intro p dirs' hp hc hu
  have hcand : ∀ q, Candidate fs dirs' lib q ↔ Candidate fs dirs lib q := by
    intro q
    unfold Candidate
    simp only [hp.mem_iff]
  cases h : findInput fs dirs' lib with
  | none => exact absurd ((hcand p).2 hc) ((complete dirs').1 h p)
  | some q => rw [hu q ((hcand q).1 (sound dirs' q h))]

/-- a file system with the files `l`, all of them shared libraries -/
def fsOf (l : List Bytes) : Fs :=
  { isFile := fun p => p ∈ l, read := fun p => if p ∈ l then some ([0x7f] ++ b!"ELF" ++ List.replicate 12 0 ++ [3, 0]) else none
    canon := fun p => some p }

/-- the second of two directories has a library -/
example : Candidate (fsOf [b!"/b/libx.so"]) [b!"/a", b!"/b"] b!"x" b!"/b/libx.so" ∧
    findInput (fsOf [b!"/b/libx.so"]) [b!"/a", b!"/b"] b!"x" = some b!"/b/libx.so" :=
  ⟨⟨by decide +kernel, .inr ⟨b!"/b", by decide +kernel, by decide +kernel⟩⟩, by decide +kernel⟩

/-- **C72** is violated even if the directories are visited in the order given: with `-L/a -L/b` and a
library in both, the one in `/b` is taken. -/
theorem C72_first_directory_violated : ∃ (fs : Fs) (app : App),
    handleArgs fs.canon [b!"-L/a", b!"-L/b", b!"-lx"] {} = .ok app ∧ app.searchPaths = [b!"/a", b!"/b"] ∧
    fs.isFile b!"/a/libx.so" = true ∧ fs.isFile b!"/b/libx.so" = true ∧
    findInput fs app.searchPaths b!"x" = some b!"/b/libx.so" :=
  ⟨fsOf [b!"/a/libx.so", b!"/b/libx.so"], { searchPaths := [b!"/a", b!"/b"], inputs := [(b!"x", false)] }, by decide +kernel, rfl,
    by decide +kernel, by decide +kernel, by decide +kernel⟩

/-- **C72** is violated: the library taken depends on the iteration order of the set of directories. -/
theorem C72_order_violated : ∃ (fs : Fs) (dirs dirs' : List Bytes), dirs'.Perm dirs ∧
    findInput fs dirs b!"x" ≠ findInput fs dirs' b!"x" :=
  ⟨fsOf [b!"/a/libx.so", b!"/b/libx.so"], [b!"/a", b!"/b"], [b!"/b", b!"/a"], .swap _ _ _, by decide +kernel⟩

end Dld.Cli
