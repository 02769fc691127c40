import Verif.Lemmas.Sound3
import Verif.Props.Resolve
import Verif.Lemmas.DemoSound
/-! # C98: linking well-formed files of moderate size does not crash -/
namespace Dld
open Writer Spec StringTable

namespace Linker
variable {env : Env} {l : Linker} {sched : LinkSched} {fuel : Nat} {F : List Nat} {V K : Nat}

/-- **C98, reading the inputs.** Reading objects, searching libraries and archives for what is missing and linking the members that are found never crashes on
complete files: it ends with the inputs in the writer, or with an error that is reported. -/
theorem C98_resolution (hc : CleanFiles env l) (hf : SoundFiles env l) (hn : NamesSmall env l) (hv : sched.Valid) {r : M Writer}
    (h : gathered env l sched fuel = some r) : (∃ w, r = .ok w) ∨ ∃ p k, r = .error (.err p k) := by
  have := gathered_sound hc hf hn hv h
  cases r with
  | ok w => exact .inl ⟨w, rfl⟩
  | error f =>
    cases f with
    | panic => exact absurd rfl this
    | err p k => exact .inr ⟨p, k, rfl⟩

/-- **C98.** If linking complete files with relocations that are implemented crashes, then the calls that were made for the inputs were not of moderate size: they
brought too much data, or too large values, or too many definitions of one name. -/
theorem C98_no_crash (hc : CleanFiles env l) (hf : SoundFiles env l) (hr : SoundRelocs env l) (hn : NamesSmall env l) (hF : FewFlags env l F) (hv : sched.Valid)
    (h : link env l sched fuel = some (.error .panic)) : ∃ log loaded w, gathered env l sched fuel = some (.ok w) ∧ Calls env l (NeededIn env l) loaded log ∧
      Hist l.options (opsOf log) w ∧ ∀ V K, ¬ Spec.Fits l.options (opsOf log) V K := by
  rcases link_resolved hv h with ⟨e, hg, he⟩ | ⟨log, loaded, w, hg, h1, h2, h3, hfin⟩
  · cases he
    exact absurd rfl (gathered_sound hc hf hn hv hg)
  · have hl := h1.symstr_small h2 hn
    have h4 := calls_spec hv h1 h2 hl
    exact ⟨log, loaded, w, hg, h4, h2, fun V K fits => finish_sound hv h2 (h4.digestible h2 hc hf hr hn hF fits) hl hfin⟩

theorem loaded_objects {N : List Call → Name → Prop} {loaded : List Loaded} {log : List Call} (h : Calls env l N loaded log) (ha : l.archives = []) :
    loaded = objectsOf env l := by
  obtain ⟨ms, e, hm⟩ := h.objects
  cases ms with
  | nil => rw [e, List.append_nil]
  | cons x ms =>
    cases hm x (by simp) with
    | mk hp => rw [ha] at hp; cases hp

/-- **C98 for objects alone.** Linking well-formed object files of moderate size, without archives and libraries, ends; it writes an output of which all other
properties of links hold, or it reports an error. All hypotheses are about the contents of the files. -/
theorem C98_objects (hc : CleanFiles env l) (hf : SoundFiles env l) (hr : SoundRelocs env l) (hn : NamesSmall env l) (hF : FewFlags env l F)
    (hN : FieldNumbers env l) (hv : sched.Valid) (ha : l.archives = []) (hs : l.options.sharedLibs = []) (S : SmallObjects env l V K) :
    ∃ rounds res, (∀ fuel, rounds ≤ fuel → link env l sched fuel = some res) ∧
      ((∃ file log w w' secs, res = .ok file ∧ LinkRun env l sched (objectsOf env l) log w w' file secs) ∨ ∃ p k, res = .error (.err p k)) := by
  have ht : TruthfulIndexes env l := by intro p hp; rw [ha] at hp; cases hp
  obtain ⟨rounds, res, hres⟩ := C60_terminates ht hv
  refine ⟨rounds, res, hres, ?_⟩
  have h := hres rounds (Nat.le_refl _)
  cases res with
  | error f =>
    cases f with
    | err p k => exact .inr ⟨p, k, rfl⟩
    | panic =>
      exfalso
      obtain ⟨log, loaded, w, hg, h1, h2, h3⟩ := C98_no_crash hc hf hr hn hF hv h
      rw [loaded_objects h1 ha] at h1
      exact h3 V K (h1.fits h2 hc hn hs S)
  | ok file =>
    obtain ⟨log, loaded, w, w', secs, hg, h1, h2, h3⟩ := link_ok hv h
    have h4 := calls_spec hv h1 h2.hist (h1.symstr_small h2.hist hn)
    rw [loaded_objects h4 ha] at h4
    have D := h4.digestible h2.hist hc hf hr hn hF (h4.fits h2.hist hc hn hs S)
    refine .inl ⟨file, log, w, w', secs, rfl, h4, h2.goodLink D.toWellFormed ⟨?_, ?_, ?_⟩ (h4.namesClean hc), h3⟩
    · intro n sh d r hop
      obtain ⟨x, hx, hcp, _⟩ := h4.copies hop
      exact hN.sections _ _ _ _ (h4.inputAt hx) hcp.1
    · intro s sec n path r hop
      obtain ⟨x, hx, hsy, _⟩ := h4.sym hop
      exact hN.symbols _ _ _ _ (h4.inputAt hx) hsy
    · intro s n path r hop
      exact hN.dynsyms _ _ _ (h4.dynsym hop).1


/-! ### Examples -/

theorem demo_sound : SoundFiles demoEnv demoLinker := by
  refine SoundFiles.of_table (by decide +kernel) (by decide) ?_ ?_
  · intro p hp
    have hp : p = libPath := by simpa [demoLinker] using hp
    subst hp
    refine ⟨by decide, fun d hd => ?_⟩
    have hd : some b!"library" = some d := by rw [← hd]; decide
    cases hd
    decide
  · intro p hp data ar n m hd ha hn
    have hp : p = arPath := by simpa [demoLinker] using hp
    subst hp
    have hd : some b!"archive" = some data := by rw [← hd]; decide
    cases hd
    have ha : some { index := [(b!"g", b!"g.o")], get := AMap.get? [(b!"g.o", List.replicate 8 0xc3)] : ArFile } = some ar := by rw [← ha]; rfl
    cases ha
    have hm : m = b!"g.o" := by
      simp only [ArFile.memberOfSymbol, AMap.get?] at hn
      split at hn
      · simpa using hn.symm
      · cases hn
    subst hm
    refine ⟨List.replicate 8 0xc3, by decide, ?_⟩
    intro e he
    have he : some memberElf = some e := by rw [← he]; rfl
    cases he
    rfl

theorem demo_relocs : SoundRelocs demoEnv demoLinker := SoundRelocs.of_table (by decide +kernel) (by decide +kernel)

/-- an object, an archive and a library that meet all requirements of the first two theorems; the inputs are read, and the link does not crash -/
example : (∃ r, gathered demoEnv demoLinker LinkSched.id 5 = some r ∧ ((∃ w, r = .ok w) ∨ ∃ p k, r = .error (.err p k))) ∧
    (link demoEnv demoLinker LinkSched.id 5 = some (.error .panic) → ∃ log loaded w, gathered demoEnv demoLinker LinkSched.id 5 = some (.ok w) ∧
      Calls demoEnv demoLinker (NeededIn demoEnv demoLinker) loaded log ∧ Hist demoLinker.options (opsOf log) w ∧
      ∀ V K, ¬ Spec.Fits demoLinker.options (opsOf log) V K) := by
  have hn : NamesSmall demoEnv demoLinker := NamesSmall.of_table (by decide +kernel)
  refine ⟨?_, fun h => C98_no_crash demo_files demo_sound demo_relocs hn (F := [0, 6]) (FewFlags.of_table (by decide +kernel) (by decide)) LinkSched.id_valid h⟩
  obtain ⟨_, _, w, w', f, s, hl, _⟩ := LinkRun.of_links LinkSched.id_valid demo_files demo_links
  rw [link_eq] at hl
  cases hg : gathered demoEnv demoLinker LinkSched.id 5 with
  | none => rw [hg] at hl; cases hl
  | some r => exact ⟨r, rfl, C98_resolution demo_files demo_sound hn LinkSched.id_valid hg⟩

/-- a program that calls `g` of the other object -/
def callerElf : ElfFile :=
  { mainElf with
    syms := [{}, { demoSym STT_FUNC 1 4 12 with st_name := 1 }, { demoSym 0 0 0 0 with st_name := 10 }]
    shdrRelocs := [(2, [⟨10, some (-4), 2, R_X86_64_PLT32⟩])] }

def calleePath : Path := ⟨b!"g.o", some b!"g.o"⟩

/-- two objects -/
def pairEnv : Env :=
  tableEnv [(mainPath, List.replicate 16 0x90), (calleePath, List.replicate 8 0xc3)]
    [(List.replicate 16 0x90, callerElf), (List.replicate 8 0xc3, memberElf)] []

def pairLinker : Linker := { options := Options.default, objects := [mainPath, calleePath], archives := [] }

/-- all requirements of the last theorem are met by two objects, one of which calls a function of the other -/
example (sched : LinkSched) (hv : sched.Valid) : ∃ rounds res, (∀ fuel, rounds ≤ fuel → link pairEnv pairLinker sched fuel = some res) ∧
    ((∃ file log w w' secs, res = .ok file ∧ LinkRun pairEnv pairLinker sched (objectsOf pairEnv pairLinker) log w w' file secs) ∨
      ∃ p k, res = .error (.err p k)) := by
  refine C98_objects (F := [0, 6]) (V := 100) (K := 1) (CleanFiles.of_table (by decide +kernel)) (SoundFiles.of_table (by decide +kernel) (by decide) ?_ ?_)
    (SoundRelocs.of_table (by decide +kernel) (by decide +kernel)) (NamesSmall.of_table (by decide +kernel))
    (FewFlags.of_table (by decide +kernel) (by decide)) (FieldNumbers.of_table (by decide +kernel)) hv rfl rfl ⟨?_, ?_, ⟨by decide, ?_⟩, by decide +kernel⟩
  · intro p hp; cases hp
  · intro p hp; cases hp
  · decide +kernel
  · decide +kernel
  · intro n
    have : (objectsOf pairEnv pairLinker).map (fun x => x.elf.definitions n) = [callerElf.definitions n, memberElf.definitions n] := rfl
    rw [this]
    have h1 : callerElf.definitions n = if b!"_start" = n then 1 else 0 := by
      simp only [ElfFile.definitions, callerElf, mainElf, demoSym, STT_FUNC, List.filter, AMap.get?]
      by_cases h : b!"_start" = n <;> simp [h]
    have h2 : memberElf.definitions n = if b!"g" = n then 1 else 0 := by
      simp only [ElfFile.definitions, memberElf, demoSym, STT_FUNC, List.filter, AMap.get?]
      by_cases h : b!"g" = n <;> simp [h]
    rw [h1, h2]
    by_cases h : b!"_start" = n
    · subst h; decide
    · rw [if_neg h]
      by_cases h' : b!"g" = n
      · rw [if_pos h']; decide
      · rw [if_neg h']; decide

end Linker
end Dld
