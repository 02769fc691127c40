import Verif.Props.Ctors
import Verif.Props.Process
import Verif.Spec.Silent
/-! # Options that are accepted and ignored: C133 -/
namespace Dld
open Writer Spec

/-! ## The linker reads neither the build id nor the `.eh_frame_hdr` flag nor the emulation -/

theorem Writer.new_asked (o : Options) (b h e) : Writer.new { o with buildId := b, ehFrameHdr := h, emulation := e } = Writer.new o := rfl
namespace Linker
theorem link_asked (env : Env) (l : Linker) (sched : LinkSched) (fuel : Nat) (b h e) :
    link env { l with options := { l.options with buildId := b, ehFrameHdr := h, emulation := e } } sched fuel = link env l sched fuel := by
  have h1 : ∀ w, loadAll env { l with options := { l.options with buildId := b, ehFrameHdr := h, emulation := e } } w = loadAll env l w := fun w => rfl
  have h2 : ∀ s w, finish { l with options := { l.options with buildId := b, ehFrameHdr := h, emulation := e } } s w = finish l s w := fun s w => rfl
  have h3 : ∀ fuel r u w, resolveLoop env { l with options := { l.options with buildId := b, ehFrameHdr := h, emulation := e } } sched fuel r u w = resolveLoop env l sched fuel r u w := by
    intro fuel
    induction fuel with
    | zero => intros; rfl
    | succ n ih => intros; simp only [resolveLoop, ih]; rfl
  unfold link
  rw [Writer.new_asked]
  simp only [h1, h2, h3]
theorem linkOn_asked (parseElf : Bytes → Option ElfFile) (parseAr : Bytes → Option ArFile) (d : Disk) (l : Linker) (sched : LinkSched) (fuel : Nat) (b h e) :
    linkOn parseElf parseAr d { l with options := { l.options with buildId := b, ehFrameHdr := h, emulation := e } } sched fuel =
      linkOn parseElf parseAr d l sched fuel := by
  unfold linkOn
  simp only [link_asked]
end Linker
end Dld
namespace Dld.Cli
open Linker

/-- the second set of options differs from the first at most in the build id, the `.eh_frame_hdr` flag and the emulation -/
def Alike (a b : App) : Prop := ∃ i h e, b = { a with buildId := i, ehFrameHdr := h, emulation := e }

/-- two readings of arguments that end alike -/
inductive AlikeR : Except CliErr App → Except CliErr App → Prop where
  | ok {a b} : Alike a b → AlikeR (.ok a) (.ok b)
  | error {e} : AlikeR (.error e) (.error e)

theorem special_alike {canon : Bytes → Option Bytes} {arg : Bytes} {a b : App} (h : Alike a b) : AlikeR (special canon arg a) (special canon arg b) := by
  obtain ⟨i, h, e, rfl⟩ := h
  unfold special
  cases stripPrefix b!"-L" arg with
  | some dir =>
    dsimp only
    cases canon dir with
    | none => exact .error
    | some d => exact .ok ⟨i, h, e, rfl⟩
  | none =>
    dsimp only
    cases stripPrefix b!"-l" arg with
    | some lib => exact .ok ⟨i, h, e, rfl⟩
    | none =>
      dsimp only
      cases stripPrefix b!"--hash-style=" arg with
      | none => exact .ok ⟨i, h, e, rfl⟩
      | some style =>
        dsimp only
        cases HashStyle.fromStr style with
        | none => exact .error
        | some s => exact .ok ⟨i, h, e, rfl⟩

theorem handleArgs_alike {canon : Bytes → Option Bytes} : ∀ (n : Nat) (args : List Bytes), args.length ≤ n → ∀ a b, Alike a b →
    AlikeR (handleArgs canon args a) (handleArgs canon args b) := by
  intro n
  induction n with
  | zero =>
    intro args hl a b h
    have : args = [] := List.length_eq_zero_iff.1 (by omega)
    subst this
    exact .ok h
  | succ n ih =>
    intro args hl a b h
    cases args with
    | nil => exact .ok h
    | cons arg rest =>
      obtain ⟨i, f, e, rfl⟩ := h
      have hr : rest.length ≤ n := by simpa using hl
      rw [handleArgs.eq_def, handleArgs.eq_def canon (arg :: rest) { a with buildId := i, ehFrameHdr := f, emulation := e }]
      dsimp only
      have tl : ∀ {v r}, rest = v :: r → r.length ≤ n := by rintro v r rfl; simp only [List.length_cons] at hr; omega
      by_cases c1 : arg = b!"--build-id"
      · rw [if_pos c1, if_pos c1]
        cases rest with
        | nil => exact .ok ⟨_, _, _, rfl⟩
        | cons v r =>
          simp only
          split
          · cases BuildId.fromStr v with
            | none => exact .error
            | some s => exact ih r (tl rfl) _ _ ⟨_, _, _, rfl⟩
          · exact ih _ hr _ _ ⟨_, _, _, rfl⟩
      rw [if_neg c1, if_neg c1]
      by_cases c2 : arg = b!"-m"
      · rw [if_pos c2, if_pos c2]
        cases rest with
        | nil => exact .error
        | cons v r =>
          simp only
          cases Emulation.fromStr v with
          | none => exact .error
          | some s => exact ih r (tl rfl) _ _ ⟨_, _, _, rfl⟩
      rw [if_neg c2, if_neg c2]
      by_cases c3 : arg = b!"-o"
      · rw [if_pos c3, if_pos c3]
        cases rest with
        | nil => exact .error
        | cons v r => exact ih r (tl rfl) _ _ ⟨_, _, _, rfl⟩
      rw [if_neg c3, if_neg c3]
      by_cases c4 : arg = b!"--eh-frame-hdr"
      · rw [if_pos c4, if_pos c4]; exact ih _ hr _ _ ⟨_, _, _, rfl⟩
      rw [if_neg c4, if_neg c4]
      by_cases c5 : arg = b!"--help" ∨ arg = b!"-h"
      · rw [if_pos c5, if_pos c5]; exact ih _ hr _ _ ⟨_, _, _, rfl⟩
      rw [if_neg c5, if_neg c5]
      by_cases c6 : arg = b!"-dynamic-linker"
      · rw [if_pos c6, if_pos c6]
        cases rest with
        | nil => exact .error
        | cons v r => exact ih r (tl rfl) _ _ ⟨_, _, _, rfl⟩
      rw [if_neg c6, if_neg c6]
      by_cases c7 : arg = b!"-L"
      · rw [if_pos c7, if_pos c7]
        cases rest with
        | nil => exact .error
        | cons v r => exact ih r (tl rfl) _ _ ⟨_, _, _, rfl⟩
      rw [if_neg c7, if_neg c7]
      by_cases c8 : arg = b!"-l"
      · rw [if_pos c8, if_pos c8]
        cases rest with
        | nil => exact .error
        | cons v r => exact ih r (tl rfl) _ _ ⟨_, _, _, rfl⟩
      rw [if_neg c8, if_neg c8]
      by_cases c9 : arg = b!"-z"
      · rw [if_pos c9, if_pos c9]
        cases rest with
        | nil => exact .error
        | cons v r => exact ih r (tl rfl) _ _ ⟨_, _, _, rfl⟩
      rw [if_neg c9, if_neg c9]
      by_cases c10 : arg = b!"--as-needed"
      · rw [if_pos c10, if_pos c10]; exact ih _ hr _ _ ⟨_, _, _, rfl⟩
      rw [if_neg c10, if_neg c10]
      by_cases c11 : arg = b!"--no-as-needed"
      · rw [if_pos c11, if_pos c11]; exact ih _ hr _ _ ⟨_, _, _, rfl⟩
      rw [if_neg c11, if_neg c11]
      by_cases c12 : arg = b!"--start-group" ∨ arg = b!"--end-group"
      · rw [if_pos c12, if_pos c12]; exact ih _ hr _ _ ⟨_, _, _, rfl⟩
      rw [if_neg c12, if_neg c12]
      generalize hs : special canon arg { a with buildId := i, ehFrameHdr := f, emulation := e } = sb
      have := special_alike (canon := canon) (arg := arg) (a := a) ⟨i, f, e, rfl⟩
      rw [hs] at this
      generalize special canon arg a = sa at this
      cases this with
      | error => exact .error
      | ok h => exact ih _ hr _ _ h

theorem Alike.refl (a : App) : Alike a a := ⟨a.buildId, a.ehFrameHdr, a.emulation, rfl⟩

theorem Alike.symm {a b : App} (h : Alike a b) : Alike b a := by
  obtain ⟨i, f, e, rfl⟩ := h
  exact ⟨a.buildId, a.ehFrameHdr, a.emulation, rfl⟩

theorem Alike.trans {a b c : App} (h : Alike a b) (h' : Alike b c) : Alike a c := by
  obtain ⟨i, f, e, rfl⟩ := h
  obtain ⟨i', f', e', rfl⟩ := h'
  exact ⟨i', f', e', rfl⟩

theorem silent_alike {canon : Bytes → Option Bytes} {w : Word} (h : Silent w) (a : App) : ∃ b, applyWord canon a w = .ok b ∧ Alike a b := by
  cases h with
  | ehFrameHdr => exact ⟨_, rfl, _, _, _, rfl⟩
  | buildId => exact ⟨_, rfl, _, _, _, rfl⟩
  | style h =>
    simp only [List.mem_cons, List.not_mem_nil, or_false] at h
    rcases h with rfl | rfl | rfl <;> exact ⟨_, rfl, _, _, _, rfl⟩
  | @hex s =>
    have : BuildId.fromStr (b!"0x" ++ s) = some (.hex s) := by
      unfold BuildId.fromStr
      rw [stripPrefix_append]
      simp
    refine ⟨{ a with buildId := some (.hex s) }, ?_, _, _, _, rfl⟩
    unfold applyWord
    rw [if_pos rfl]
    simp only [this]
  | emulation => exact ⟨_, rfl, _, _, _, rfl⟩
  | keyword => exact ⟨_, rfl, .refl a⟩
  | startGroup => exact ⟨_, rfl, .refl a⟩
  | endGroup => exact ⟨_, rfl, .refl a⟩

theorem applyWord_alike {canon : Bytes → Option Bytes} {w : Word} {a b : App} (h : Alike a b) : AlikeR (applyWord canon a w) (applyWord canon b w) := by
  obtain ⟨o, v⟩ := w
  have hs := special_alike (canon := canon) (arg := o) h
  obtain ⟨i, f, e, rfl⟩ := h
  unfold applyWord
  dsimp only
  by_cases c : o = b!"--build-id"
  · rw [if_pos c, if_pos c]
    cases v with
    | none => exact .ok ⟨_, _, _, rfl⟩
    | some v =>
      dsimp only
      cases BuildId.fromStr v with
      | none => exact .error
      | some s => exact .ok ⟨_, _, _, rfl⟩
  rw [if_neg c, if_neg c]
  by_cases c : o = b!"-m"
  · rw [if_pos c, if_pos c]
    cases v with
    | none => exact .error
    | some v =>
      dsimp only
      cases Emulation.fromStr v with
      | none => exact .error
      | some s => exact .ok ⟨_, _, _, rfl⟩
  rw [if_neg c, if_neg c]
  by_cases c : o = b!"-o"
  · rw [if_pos c, if_pos c]; exact .ok ⟨_, _, _, rfl⟩
  rw [if_neg c, if_neg c]
  by_cases c : o = b!"--eh-frame-hdr"
  · rw [if_pos c, if_pos c]; exact .ok ⟨_, _, _, rfl⟩
  rw [if_neg c, if_neg c]
  by_cases c : o = b!"--help" ∨ o = b!"-h"
  · rw [if_pos c, if_pos c]; exact .ok ⟨_, _, _, rfl⟩
  rw [if_neg c, if_neg c]
  by_cases c : o = b!"-dynamic-linker"
  · rw [if_pos c, if_pos c]; exact .ok ⟨_, _, _, rfl⟩
  rw [if_neg c, if_neg c]
  by_cases c : o = b!"-L"
  · rw [if_pos c, if_pos c]; exact .ok ⟨_, _, _, rfl⟩
  rw [if_neg c, if_neg c]
  by_cases c : o = b!"-l"
  · rw [if_pos c, if_pos c]; exact .ok ⟨_, _, _, rfl⟩
  rw [if_neg c, if_neg c]
  by_cases c : o = b!"-z"
  · rw [if_pos c, if_pos c]; exact .ok ⟨_, _, _, rfl⟩
  rw [if_neg c, if_neg c]
  by_cases c : o = b!"--as-needed"
  · rw [if_pos c, if_pos c]; exact .ok ⟨_, _, _, rfl⟩
  rw [if_neg c, if_neg c]
  by_cases c : o = b!"--no-as-needed"
  · rw [if_pos c, if_pos c]; exact .ok ⟨_, _, _, rfl⟩
  rw [if_neg c, if_neg c]
  by_cases c : o = b!"--start-group" ∨ o = b!"--end-group"
  · rw [if_pos c, if_pos c]; exact .ok ⟨_, _, _, rfl⟩
  rw [if_neg c, if_neg c]
  exact hs

theorem fold_alike {canon : Bytes → Option Bytes} {ws ws' : List Word} (h : SameApart ws ws') : ∀ {a b : App}, Alike a b →
    AlikeR (foldM' (applyWord canon) a ws) (foldM' (applyWord canon) b ws') := by
  induction h with
  | nil => exact fun h => .ok h
  | @both w ws ws' _ ih =>
    intro a b h
    rw [foldM'_cons, foldM'_cons]
    have := applyWord_alike (canon := canon) (w := w) h
    generalize applyWord canon a w = ra at this ⊢
    generalize applyWord canon b w = rb at this ⊢
    cases this with
    | error => exact .error
    | ok h => exact ih h
  | @left w ws ws' hw _ ih =>
    intro a b h
    obtain ⟨a', h1, h2⟩ := silent_alike (canon := canon) hw a
    rw [foldM'_cons, h1]
    exact ih (h2.symm.trans h)
  | @right w ws ws' hw _ ih =>
    intro a b h
    obtain ⟨b', h1, h2⟩ := silent_alike (canon := canon) hw b
    rw [foldM'_cons, h1]
    exact ih (h.trans h2)

/-- two ways to end before the linker is called that are alike -/
inductive AlikeO : Outcome → Outcome → Prop where
  | link {a b found} : Alike a b → AlikeO (.link a found) (.link b found)
  | same {o} : AlikeO o o

theorem scriptLoop_alike {fs : Fs} {dirs : List Bytes → List Bytes} {parseFuel : Nat} : ∀ (fuel : Nat) {a b : App} (found : Found), Alike a b →
    AlikeO (scriptLoop fs dirs parseFuel fuel a found) (scriptLoop fs dirs parseFuel fuel b found) := by
  intro fuel
  induction fuel with
  | zero => intros; exact .same
  | succ fuel ih =>
    intro a b found h
    unfold scriptLoop
    cases found.scripts.getLast? with
    | none => exact .link h
    | some script =>
      dsimp only
      cases fs.read script with
      | none => exact .same
      | some text =>
        dsimp only
        cases Script.parse parseFuel [] text with
        | running => exact .same
        | error => exact .same
        | ok args =>
          cases args with
          | nil => exact ih _ h
          | cons x xs =>
            dsimp only
            have := handleArgs_alike (canon := fs.canon) _ (x :: xs) (Nat.le_refl _) a b h
            generalize handleArgs fs.canon (x :: xs) a = ra at this ⊢
            generalize handleArgs fs.canon (x :: xs) b = rb at this ⊢
            cases this with
            | @error e => cases e <;> exact .same
            | ok h =>
              obtain ⟨i, f, e, rfl⟩ := h
              dsimp only
              split
              · exact .same
              · exact ih _ ⟨i, f, e, rfl⟩

theorem main_alike {fs : Fs} {dirs : List Bytes → List Bytes} {parseFuel fuel : Nat} {args args' : List Bytes} {ws ws' : List Word}
    (hr : Reads args ws) (hr' : Reads args' ws') (h : SameApart ws ws') : AlikeO (main fs dirs parseFuel fuel args) (main fs dirs parseFuel fuel args') := by
  unfold main
  have := fold_alike (canon := fs.canon) h (.refl {})
  rw [← handleArgs_words hr, ← handleArgs_words hr'] at this
  generalize handleArgs fs.canon args {} = ra at this ⊢
  generalize handleArgs fs.canon args' {} = rb at this ⊢
  cases this with
  | @error e => cases e <;> exact .same
  | @ok a b h =>
    obtain ⟨i, f, e, rfl⟩ := h
    dsimp only
    split
    · exact .same
    · exact .same
    · split
      · exact .same
      · exact scriptLoop_alike _ _ ⟨i, f, e, rfl⟩

/-- **C133, what holds**: the options do no harm. Two command lines that differ in such words only make the program end in the same way, with the same
message and the same bytes in every file, scripts, archives and libraries included. What is missing: that they have the effect the help text promises
(`C133_sections_violated`). -/
theorem C133_silent_partial {parseElf : Bytes → Option ElfFile} {parseAr : Bytes → Option ArFile} {fs : Fs} {writable : Bytes → Bool}
    {dirs : List Bytes → List Bytes} {sched : LinkSched} {parseFuel fuel rounds : Nat} {args args' : List Bytes} {ws ws' : List Word} (hr : Reads args ws)
    (hr' : Reads args' ws') (h : SameApart ws ws') : run parseElf parseAr fs writable dirs sched parseFuel fuel rounds args =
      run parseElf parseAr fs writable dirs sched parseFuel fuel rounds args' := by
  have key := main_alike (fs := fs) (dirs := dirs) (parseFuel := parseFuel) (fuel := fuel) hr hr' h
  unfold run
  generalize main fs dirs parseFuel fuel args = ra at key ⊢
  generalize main fs dirs parseFuel fuel args' = rb at key ⊢
  cases key with
  | same => rfl
  | @link a b found h =>
    obtain ⟨i, f, e, rfl⟩ := h
    have : ∀ d, (toLinker { a with buildId := i, ehFrameHdr := f, emulation := e } found).linkOn parseElf parseAr d sched rounds =
        (toLinker a found).linkOn parseElf parseAr d sched rounds :=
      fun d => linkOn_asked parseElf parseAr d (toLinker a found) sched rounds i f e
    dsimp only
    rw [this]
end Dld.Cli

namespace Dld
open Writer Spec

variable {env : Env} {l : Linker} {sched : LinkSched} {loaded : List Loaded} {log : List Call} {w w' : Writer} {file : Bytes} {secs : List Section}

/-- a name that neither the linker nor a file gives to a section is the name of no section of the output -/
theorem LinkRun.no_section (R : LinkRun env l sched loaded log w w' file secs) {n : Name} (hn : n ≠ []) (hr : n ∉ reservedNames)
    (hno : ∀ y ∈ loaded, ∀ s ∈ y.elf.copied, y.elf.secName s.1.sh_name ≠ some n) : sectionsNamed file n = [] := by
  have G := R.good.toGoodRun
  obtain ⟨w0, pn, h0, hI⟩ := G.run.hist.winv
  rw [G.named]
  refine List.map_eq_nil_iff.2 (List.filter_eq_nil_iff.2 fun t ht he => ?_)
  have he : Dld.nameOf w t = some n := by simpa using he
  obtain ⟨s, hs, e⟩ := G.run.origin G.good.flags ht
  have e2 : Dld.nameOf w t = Dld.nameOf w s := by unfold Dld.nameOf; rw [show t.sh.sh_name = s.sh.sh_name from congrArg (·.2.2.2.1) e]
  rcases hI.name_ptr h0 G.names hs with ⟨h1, h2⟩ | ⟨_, m, hm, h2⟩
  · rw [← e2, he] at h2
    have key : ∀ p < P.first, ptrName p = [] ∨ ptrName p ∈ reservedNames := by decide
    rcases key _ h1 with h | h <;> rw [← Option.some.inj h2] at h
    · exact hn h
    · exact hr h
  · rw [← e2, he] at h2
    obtain rfl := Option.some.inj h2
    obtain ⟨_, sh, d, r, h4⟩ := hI.pushed_name hm
    obtain ⟨y, hy, j, g1, g2, g3, _⟩ := R.calls.push h4
    exact hno y hy (sh, j) (ElfFile.mem_copied.2 ⟨g1, g2⟩) g3

/-- **C133** is violated, whatever the options are: no executable has a `PT_GNU_EH_FRAME` header (0x6474e550) or a `PT_NOTE` header (4), by which a
program finds the table for its exceptions and a debugger the build id, and a section `.eh_frame_hdr` or `.note.gnu.build-id` is there only if a file
that was linked has one already. -/
theorem C133_sections_violated (R : LinkRun env l sched loaded log w w' file secs) : phdrsOf file 0x6474e550 = [] ∧ phdrsOf file 4 = [] ∧
    ∀ n ∈ [b!".eh_frame_hdr", b!".note.gnu.build-id"], (∀ y ∈ loaded, ∀ s ∈ y.elf.copied, y.elf.secName s.1.sh_name ≠ some n) →
      sectionsNamed file n = [] := by
  have key : ∀ ty, ty ∉ [6, 3, 2, 1] → phdrsOf file ty = [] := fun ty ht => by
    unfold phdrsOf
    rw [List.filter_eq_nil_iff]
    intro p hp he
    exact ht (eq_of_beq he ▸ C117_kinds_partial R p hp)
  refine ⟨key _ (by decide), key _ (by decide), fun n hn hno => ?_⟩
  have : n ≠ [] ∧ n ∉ reservedNames := (by decide : ∀ n ∈ [b!".eh_frame_hdr", b!".note.gnu.build-id"], n ≠ [] ∧ n ∉ reservedNames) n hn
  exact R.no_section this.1 this.2 hno

/-- the linker of an earlier example, asked for a build id and the table -/
def askingLinker : Linker := { codeLinker with options := { Options.default with buildId := some .sha1, ehFrameHdr := true } }

theorem asking_links : links mixEnv askingLinker LinkSched.id 5 (fun _ _ _ _ => true) = true := by decide +kernel

/-- it makes an executable that has neither -/
example : ∃ log w w' f s, LinkRun mixEnv askingLinker LinkSched.id [codeFile 0] log w w' f s ∧ phdrsOf f 0x6474e550 = [] ∧ phdrsOf f 4 = [] ∧
    sectionsNamed f b!".eh_frame_hdr" = [] ∧ sectionsNamed f b!".note.gnu.build-id" = [] := by
  obtain ⟨log, loaded, w, w', f, s, _, _, h3, _⟩ := LinkRun.of_links LinkSched.id_valid (CleanFiles.of_table (by decide +kernel)) asking_links
  have e := Linker.loaded_objects h3.calls rfl
  subst e
  obtain ⟨h1, h2, h⟩ := C133_sections_violated h3
  have key : ∀ n ∈ [b!".eh_frame_hdr", b!".note.gnu.build-id"], ∀ s ∈ codeElf.copied, codeElf.secName s.1.sh_name ≠ some n := by decide +kernel
  refine ⟨log, w, w', f, s, h3, h1, h2, h _ (by simp) ?_, h _ (by simp) ?_⟩ <;> intro y hy <;> rw [List.mem_singleton.1 hy] <;> exact key _ (by simp)

end Dld

namespace Dld.Cli

/-- the command line of a run that succeeds, and one that asks for more: they end alike -/
example : procRun [b!"-o", b!"out", b!"main.o", b!"-L", b!"lib", b!"-lf", b!"-lg"] =
      procRun [b!"--eh-frame-hdr", b!"-o", b!"out", b!"-m", b!"elf_x86_64", b!"main.o", b!"--build-id", b!"0xff", b!"-L", b!"lib", b!"-z", b!"now", b!"-lf",
        b!"--start-group", b!"-lg", b!"--end-group", b!"--build-id"] ∧
    ends (.executable b!"out") b!"out" (fun f => f.length > 0 && f != b!"old") (procRun [b!"-o", b!"out", b!"main.o", b!"-L", b!"lib", b!"-lf", b!"-lg"]) = true := by
  refine ⟨C133_silent_partial
    (.value (by decide) (.alone (by decide) (by decide) (.value (by decide) (.alone (by decide) (by decide) (.alone (by decide) (by decide) .nil)))))
    (.alone (by decide) (by decide) (.value (by decide) (.value (by decide) (.alone (by decide) (by decide) (.buildId (by decide) (.value (by decide)
      (.value (by decide) (.alone (by decide) (by decide) (.alone (by decide) (by decide) (.alone (by decide) (by decide) (.alone (by decide) (by decide)
        (.buildIdAlone (by simp) .nil))))))))))))
    (.right .ehFrameHdr (.both (.right .emulation (.both (.right (.hex (s := b!"ff")) (.both (.right .keyword (.both (.right .startGroup (.both
      (.right .endGroup (.right .buildId .nil)))))))))))), ?_⟩
  decide +kernel

end Dld.Cli
