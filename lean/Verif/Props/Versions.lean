import Verif.Spec.Versions
import Verif.Props.Silent
import Verif.Props.Ctors
/-! # Symbol versions and the entry for debuggers: C138 -/
namespace Dld
open Writer Spec

variable {env : Env} {l : Linker} {sched : LinkSched} {loaded : List Loaded} {log : List Call} {w w' : Writer} {file : Bytes} {secs : List Section}

/-- **C138**, what is known: the tags of the dynamic table are those of C51, none of which is about versions. What is missing: the versions
(`C138_versions_violated`). -/
theorem C138_tags_partial (R : LinkRun env l sched loaded log w w' file secs) (hh : NoHashSections env l) :
    ∀ e ∈ dynsOf (bodyNamed file b!".dynamic"), e.1 ∈ [0, 1] ++ sectionTags.map (·.1) ++ [25, 26, 27, 28, 0x6ffffff9] := by
  obtain ⟨d, hd, _, _, _, _, _, _, ht, _⟩ := C51_dynamic R.good.toGoodRun (R.plainTypes hh)
  intro e he
  rw [(sectionNamed_one hd).2.1] at he
  exact ht e he

/-- **C138** is violated by every link: the dynamic table has no entries for the versions of symbols and none for debuggers, and there are no sections with
versions unless a linked file has some already. -/
theorem C138_versions_violated (R : LinkRun env l sched loaded log w w' file secs) (hh : NoHashSections env l) :
    (∀ e ∈ dynsOf (bodyNamed file b!".dynamic"), e.1 ∉ versionTags ∧ e.1 ≠ debugTag) ∧
    ∀ n ∈ versionSections, (∀ y ∈ loaded, ∀ s ∈ y.elf.copied, y.elf.secName s.1.sh_name ≠ some n) → sectionsNamed file n = [] := by
  refine ⟨fun e he => ?_, fun n hn hno => ?_⟩
  · exact (by decide : ∀ t ∈ [0, 1] ++ sectionTags.map (·.1) ++ [25, 26, 27, 28, 0x6ffffff9], t ∉ versionTags ∧ t ≠ debugTag) _ (C138_tags_partial R hh e he)
  · have : n ≠ [] ∧ n ∉ reservedNames := (by decide : ∀ n ∈ versionSections, n ≠ [] ∧ n ∉ reservedNames) n hn
    exact R.no_section this.1 this.2 hno

/-- the same in a running process: what the loader reads -/
theorem C138_loader_violated (R : LinkRun env l sched loaded log w w' file secs) (hh : NoHashSections env l) (Z : ZeroFillLast file) :
    ∀ t ∈ debugTag :: versionTags, dynTag file t = none := by
  intro t ht
  obtain ⟨es, h1, h2⟩ := R.good.toGoodRun.dynTable_eq (R.plainTypes hh) Z
  have hno : ∀ e ∈ es, e.1 ≠ t := by
    intro e he h
    have := (C138_versions_violated R hh).1 e (by rw [h2]; simp [he])
    rcases List.mem_cons.1 ht with ht | ht
    · exact this.2 (h.trans ht)
    · exact this.1 (h ▸ ht)
  unfold dynTag
  rw [h1]
  show (es.find? fun e => e.1 == t).bind (fun e => some e.2) = none
  rw [List.find?_eq_none.2 fun e he h => hno e he (eq_of_beq h)]
  rfl

/-- the program of an earlier example calls `f` of a library, and asks for no version of it -/
example : ∃ log w w' f s, LinkRun worldEnv worldLinker LinkSched.id [partFile, wholeFile] log w w' f s ∧ LibraryName [partFile, wholeFile] b!"f" ∧
    (∀ t ∈ debugTag :: versionTags, dynTag f t = none) ∧ sectionsNamed f b!".gnu.version_r" = [] := by
  obtain ⟨log, w, w', f, s, o, g, _, W⟩ := world_run
  refine ⟨log, w, w', f, s, W.run, world_library, C138_loader_violated W.run world_hashes W.zero, ?_⟩
  refine (C138_versions_violated W.run world_hashes).2 _ (by decide) fun y hy => ?_
  have : y.elf = partElf ∨ y.elf = wholeElf := by
    have hy : y ∈ [partFile, wholeFile] := hy
    simp only [List.mem_cons, List.not_mem_nil, or_false] at hy
    rcases hy with rfl | rfl
    · exact .inl rfl
    · exact .inr rfl
  rcases this with h | h <;> rw [h] <;> decide +kernel

end Dld
