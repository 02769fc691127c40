import Verif.Props.Process
/-! # What a run does to its inputs: C142 -/
namespace Dld

namespace Linker

/-- **C142** is violated: the output file is emptied before the inputs are read. Every link whose output is one of its objects fails or crashes, and that
object is empty afterwards, whatever it was. -/
theorem C142_inputs_violated {parseElf : Bytes → Option ElfFile} {parseAr : Bytes → Option ArFile} {d : Disk} {l : Linker} {sched : LinkSched} {fuel : Nat}
    (hv : sched.Valid) (he : parseElf [] = none) (hw : d.writable l.options.output = true) (ho : l.options.output ∈ l.objects) {o : Outcome}
    (h : linkOn parseElf parseAr d l sched fuel = some o) : o = .panic ∨ ∃ p k d', o = .err p k d' ∧ d'.files l.options.output = some [] := by
  simp only [linkOn, if_pos hw] at h
  have hempty : (d.create l.options.output).files l.options.output = some [] := by
    unfold Disk.create
    split <;> simp [Disk.write, Disk.chmod]
  cases hl : link { read := (d.create l.options.output).files, parseElf, parseAr } l sched fuel with
  | none => rw [hl] at h; cases h
  | some r =>
    rw [hl] at h
    cases r with
    | error f =>
      cases f with
      | panic => cases h; exact .inl rfl
      | err p k => cases h; exact .inr ⟨p, k, _, rfl, hempty⟩
    | ok file =>
      exfalso
      obtain ⟨log, loaded, w, w', secs, _, h1, _⟩ := link_ok hv hl
      obtain ⟨data, e, hd, hp⟩ := h1.readable _ ho
      have hd : (d.create l.options.output).files l.options.output = some data := hd
      rw [hempty] at hd
      cases hd
      rw [show parseElf [] = some e from hp] at he
      cases he

end Linker

namespace Cli
variable {parseElf : Bytes → Option ElfFile} {parseAr : Bytes → Option ArFile} {fs : Fs} {writable : Bytes → Bool} {dirs : List Bytes → List Bytes}
  {sched : LinkSched} {parseFuel fuel rounds : Nat} {args : List Bytes} {ws : List Word}

/-- an object file at an absolute path, which is named as the output as well -/
theorem C142_run_violated : ∃ (fs : Fs) (args : List Bytes) (c : Bytes) (m : Report) (files : Bytes → Option Bytes), fs.read b!"/main.o" = some c ∧ c ≠ [] ∧
    run (AMap.get? procElfs) procAr fs (fun _ => true) id LinkSched.id 10 10 5 args = some (.failure m files) ∧
    inputsOf [(b!"/main.o", none), (b!"-o", some b!"/main.o")] = [(b!"/main.o", false)] ∧ Reads args [(b!"/main.o", none), (b!"-o", some b!"/main.o")] ∧
    files b!"/main.o" = some [] := by
  have h : fails (.link b!"/main.o" .input) b!"/main.o" (· == []) (run (AMap.get? procElfs) procAr (textFs [(b!"/main.o", elfHead 1 ++ List.replicate 16 0x90)])
      (fun _ => true) id LinkSched.id 10 10 5 [b!"/main.o", b!"-o", b!"/main.o"]) = true := by decide +kernel
  unfold fails at h
  split at h
  · next m files hr =>
    simp only [Bool.and_eq_true, beq_iff_eq, Option.any_eq_true] at h
    obtain ⟨rfl, file, h1, rfl⟩ := h
    exact ⟨_, _, _, _, files, rfl, by decide, hr, by decide +kernel, .alone (by decide) (by decide) (.value (by decide) .nil), h1⟩
  · cases h

/-- **C142, the part that holds.** A run changes no file but the output: every other file, and with it every input that is not the output, is as before,
however the run ends with an exit status. Missing: inputs that are the output (`C142_inputs_violated`, `C142_run_violated`). -/
theorem C142_inputs_partial (hv : sched.Valid) (hd : ∀ l, (dirs l).Perm l) (hr : Reads args ws) (hn : NoScripts fs (dirsOf fs.canon ws) (inputsOf ws))
    {files : Bytes → Option Bytes}
    (h : (∃ out, run parseElf parseAr fs writable dirs sched parseFuel fuel rounds args = some (.success out files)) ∨
      ∃ m, run parseElf parseAr fs writable dirs sched parseFuel fuel rounds args = some (.failure m files)) {q : Bytes} (hq : q ≠ outputOf ws) :
    files q = fs.read q := by
  rcases h with ⟨out, h⟩ | ⟨m, h⟩
  · by_cases hh : HelpAsked ws
    · rcases C104_success hv h with ⟨_, hf, _⟩ | ⟨_, _, _, _, _, _, _, _, _, hno⟩
      · rw [hf]
      · exact absurd hh (hno ws hr)
    · exact (C104_output hv hd hr hh hn h).2.1 q hq
  · rcases C105_failure hd hr hn h with ⟨_, _, hf, _⟩ | ⟨_, _, _, hf, _⟩ | ⟨_, _, hf⟩ | ⟨_, _, _, _, _, _, _, _, _, _, _, hf⟩
    · rw [hf]
    · rw [hf]
    · rw [hf]
    · exact hf q hq

/-- a run that leaves its inputs alone -/
example : ∃ files, procRun [b!"-o", b!"out", b!"g.o"] = some (.success (.executable b!"out") files) ∧ files b!"g.o" = procFs.read b!"g.o" := by
  obtain ⟨files, file, h1, h2, h3⟩ := of_ends (show ends (.executable b!"out") b!"g.o" (fun f => some f == procFs.read b!"g.o") (procRun [b!"-o", b!"out", b!"g.o"]) = true by
    decide +kernel)
  exact ⟨files, h1, by rw [h2]; exact beq_iff_eq.1 h3⟩

end Cli

/-- an object that is the output -/
example : Linker.linkOn (AMap.get? [(List.replicate 16 0x90, mainElf)]) (fun _ => none)
    { files := AMap.get? [(mainPath, List.replicate 16 0x90)], writable := fun _ => true } { options := { Options.default with output := mainPath }, objects := [mainPath], archives := [] }
    LinkSched.id 5 ≠ none := by decide +kernel

end Dld
