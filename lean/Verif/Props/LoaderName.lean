import Verif.Props.Process
/-! # C106: a dynamic linker that is not a file name -/
namespace Dld

/-- a link with a dynamic linker that has no file name crashes -/
theorem Linker.link_no_loader {env : Env} {l : Linker} {sched : LinkSched} {fuel : Nat} (h : l.options.dynamicLinker.file = none) :
    Linker.link env l sched fuel = some (.error .panic) := by
  have : Writer.new l.options = .error .panic := by
    unfold Writer.new
    rw [h]
    rfl
  unfold Linker.link
  rw [this]

namespace Cli

variable {parseElf : Bytes → Option ElfFile} {parseAr : Bytes → Option ArFile} {fs : Fs} {writable : Bytes → Bool} {dirs : List Bytes → List Bytes}
  {sched : LinkSched} {parseFuel fuel rounds : Nat} {args : List Bytes} {ws : List Word}

/-- **C106** is violated by every run with a `-dynamic-linker` that has no file name, like `/` or `/lib/..`: unless it ends before the linker starts, with
the help text or a report, it crashes. -/
theorem C106_loader_violated (hd : ∀ l, (dirs l).Perm l) (hv : sched.Valid) (hr : Reads args ws) (hn : NoScripts fs (dirsOf fs.canon ws) (inputsOf ws))
    {v : Bytes} (hl : (valuesOf b!"-dynamic-linker" ws).getLast? = some v) (hf : (Path.of v).file = none) {r : Exit}
    (h : run parseElf parseAr fs writable dirs sched parseFuel fuel rounds args = some r) :
    r = .panic ∨ r = .success .help fs.read ∨ ∃ m, r = .failure m fs.read := by
  cases r with
  | panic => exact .inl rfl
  | success out files =>
    rcases C104_success hv h with ⟨rfl, rfl, _⟩ | ⟨output, l, file, rfl, _, _, _, _, _, hh⟩
    · exact .inr (.inl rfl)
    · obtain ⟨_, _, objects, archives, libs, l, file, _, hw, hk, _⟩ := C104_output hv hd hr (hh ws hr) hn h
      rw [Linker.link_no_loader (by rw [hw.dynamicLinker, hl]; exact hf)] at hk
      cases hk
  | failure m files =>
    rcases C105_failure hd hr hn h with ⟨_, rfl, rfl, _⟩ | ⟨_, _, rfl, rfl, _⟩ | ⟨_, rfl, rfl⟩ | ⟨_, _, _, l, p, k, _, _, hw, hk, _⟩
    · exact .inr (.inr ⟨_, rfl⟩)
    · exact .inr (.inr ⟨_, rfl⟩)
    · exact .inr (.inr ⟨_, rfl⟩)
    · rw [Linker.link_no_loader (by rw [hw.dynamicLinker, hl]; exact hf)] at hk
      cases hk

/-- the words of a command line with the dynamic linker `/lib/..`; the run crashes, with the file `main.o` that is linked without the option -/
example : Reads [b!"-dynamic-linker", b!"/lib/..", b!"g.o"] [(b!"-dynamic-linker", some b!"/lib/.."), (b!"g.o", none)] ∧
    (valuesOf b!"-dynamic-linker" [(b!"-dynamic-linker", some b!"/lib/.."), (b!"g.o", none)]).getLast? = some b!"/lib/.." ∧
    (Path.of b!"/lib/..").file = none ∧ (Path.of b!"/").file = none ∧
    NoScripts procFs [] [(b!"g.o", false)] ∧
    procRun [b!"-dynamic-linker", b!"/lib/..", b!"g.o"] = some .panic ∧ ends (.executable b!"./out") b!"./out" (fun _ => true) (procRun [b!"g.o"]) = true := by
  have hp : (match procRun [b!"-dynamic-linker", b!"/lib/..", b!"g.o"] with | some .panic => true | _ => false) = true := by decide +kernel
  refine ⟨.value (by decide) (.alone (by decide) (by decide) .nil), by decide +kernel, by decide +kernel, by decide +kernel, ?_, ?_, by decide +kernel⟩
  · intro e he p c hs hr
    obtain rfl := List.mem_singleton.1 he
    obtain ⟨_, rfl | ⟨d, hd, _⟩⟩ := hs
    · have hr : some (elfHead 1 ++ List.replicate 8 0xc3) = some c := hr
      cases hr
      exact .inl ⟨by decide, by decide⟩
    · cases hd
  · split at hp
    · assumption
    · cases hp

end Cli
end Dld
