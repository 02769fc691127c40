import Verif.Spec.Asked
import Verif.Props.Process
import Verif.Props.Resolve
import Verif.Props.Loader
/-! # C128: the executable names the dynamic linker and the libraries that the command line names -/
namespace Dld

theorem splitPath_ne : ∀ p, splitPath p ≠ []
  | [] => by simp [splitPath]
  | c :: cs => by
    rw [splitPath]
    split
    · simp
    · split <;> simp

theorem splitPath_one {n : Bytes} (h : (47 : UInt8) ∉ n) : splitPath n = [n] := by
  induction n with
  | nil => rfl
  | cons c n ih =>
    rw [splitPath, if_neg (fun e => h (by rw [e]; exact .head _)), ih fun hn => h (.tail _ hn)]

theorem splitPath_append (d n : Bytes) : splitPath (d ++ [47] ++ n) = splitPath d ++ splitPath n := by
  induction d with
  | nil => simp [splitPath]
  | cons c d ih =>
    simp only [List.cons_append, List.append_assoc, List.singleton_append, List.nil_append] at ih ⊢
    rw [splitPath, splitPath]
    split
    · rw [ih]; rfl
    · rw [ih]
      cases e : splitPath d with
      | nil => exact absurd e (splitPath_ne d)
      | cons p ps => rfl

/-- the name of a file is the last part of its path -/
theorem fileName_last {p n : Bytes} (h : Cli.LastPart p n) : fileName p = some n := by
  have key : ∀ l, splitPath p = l ++ [n] → fileName p = some n := by
    intro l e
    unfold fileName
    rw [e, List.reverse_append]
    simp [h.name]
  rcases h.last with e | ⟨d, e⟩
  · exact key [] (by rw [e, splitPath_one h.one]; rfl)
  · exact key (splitPath d) (by rw [e, splitPath_append, splitPath_one h.one])

theorem Cli.LastPart.unique {p n m : Bytes} (h : Cli.LastPart p n) (h' : Cli.LastPart p m) : n = m := by
  have := (fileName_last h).symm.trans (fileName_last h')
  exact Option.some.inj this

namespace Cli
open Spec Writer

variable {ws : List Word} {objects archives : List Bytes} {libs : List (Bytes × Bool)} {l : Linker} {env : Env} {sched : LinkSched} {rounds : Nat} {file : Bytes}

/-- the dynamic linker the words name -/
def linkerOf (ws : List Word) : Bytes := ((valuesOf b!"-dynamic-linker" ws).getLast?).getD b!"/lib64/ld-linux-x86-64.so.2"

/-- **C128** (the dynamic linker): the program interpreter of the executable is the path that the last `-dynamic-linker` gives, or the default. `l` is the
linker of the run (`C104_output`). -/
theorem C128_interpreter (W : Wanted ws objects archives libs l) (hv : sched.Valid) (hc : CleanFiles env l) (hf : Linker.Fits env l sched rounds)
    (h : Linker.link env l sched rounds = some (.ok file)) : ∃ p, phdrsOf file 3 = [p] ∧ p.bytes file = linkerOf ws ++ [0] := by
  obtain ⟨log, loaded, w, w', secs, R⟩ := Linker.link_run hv hc hf h
  obtain ⟨p, h1, h2⟩ := C86_interpreter R.good.toGoodRun
  exact ⟨p, h1, by rw [h2, W.dynamicLinker]; rfl⟩

/-- **C128** (the libraries): the executable asks for the dynamic linker and then for libraries that the command line names, each by the last part of its
path; and for every symbol that it takes from outside, the library that has it is among them. -/
theorem C128_needed (W : Wanted ws objects archives libs l) (hv : sched.Valid) (hc : CleanFiles env l) (hf : Linker.Fits env l sched rounds)
    (hl : Linker.LibraryNames env l) (h : Linker.link env l sched rounds = some (.ok file)) {ld : Bytes} (hld : LastPart (linkerOf ws) ld)
    (hn : ∀ e ∈ libs, ∃ n, LastPart e.1 n) :
    (∃ ns : List Name, neededNames (bodyNamed file b!".dynamic") (bodyNamed file b!".dynstr") = some ld :: ns.map some ∧
      ∀ n ∈ ns, ∃ e ∈ libs, LastPart e.1 n) ∧
    ∀ n k, n ≠ [] → dynName file k = some n → ∃ e ∈ libs, ∃ f s, LastPart e.1 f ∧ LibraryHas env l (Path.of e.1) s n ∧
      some f ∈ neededNames (bodyNamed file b!".dynamic") (bodyNamed file b!".dynstr") := by
  have hlib : ∀ p ∈ l.options.sharedLibs.map (·.1), ∀ f, p.file = some f → ∃ e ∈ libs, p = Path.of e.1 ∧ LastPart e.1 f := by
    intro p hp f hpf
    rw [W.libs, List.map_map, List.mem_map] at hp
    obtain ⟨e, he, rfl⟩ := hp
    obtain ⟨n, hn⟩ := hn e he
    have : some n = some f := (fileName_last hn).symm.trans hpf
    cases this
    exact ⟨e, he, rfl, hn⟩
  constructor
  · obtain ⟨log, loaded, w, w', secs, R, ns, h1, h2⟩ := Linker.C63_used_partial hv hc hf hl h
    refine ⟨ns, ?_, fun n hn => ?_⟩
    · rw [h1, W.dynamicLinker]
      exact congrArg (· :: ns.map some) (fileName_last hld)
    · obtain ⟨p, s, m, s', hp, hh, _⟩ := h2 n hn
      obtain ⟨e, he, _, hm⟩ := hlib p hh.1 n hp
      exact ⟨e, he, hm⟩
  · intro n k hne hk
    obtain ⟨p, s, f, hh, hp, hm⟩ := Linker.C62_needed_partial hv hc hf hl h (.inl ⟨hne, k, hk⟩)
    obtain ⟨e, he, rfl, hl⟩ := hlib p hh.1 f hp
    exact ⟨e, he, f, s, hl, hh, hm⟩

/-- **C128** (`-lNAME`): if `-lNAME` stands for `libNAME.so` in a directory, the last part of the path is `libNAME.so`. -/
theorem C128_library {d n : Bytes} (hn : (47 : UInt8) ∉ n) : LastPart (join d (b!"lib" ++ n ++ b!".so")) (b!"lib" ++ n ++ b!".so") where
  last := by
    unfold join
    rw [if_neg (by simp)]
    split
    · next h =>
      rcases h with rfl | h
      · exact .inl rfl
      · right
        refine ⟨d.dropLast, ?_⟩
        have hne : d ≠ [] := by rintro rfl; cases h
        have : d.dropLast ++ [47] = d := by
          rw [List.getLast?_eq_some_getLast hne] at h
          rw [← Option.some.inj h]
          exact List.dropLast_concat_getLast hne
        rw [this]
    · exact .inr ⟨d, rfl⟩
  one := by
    simp [hn]
  name := by simp

/-! ## Example -/

/-- the words of `dld main.o -L lib -lf -lg` -/
def askedWords : List Word := [(b!"main.o", none), (b!"-L", some b!"lib"), (b!"-lf", none), (b!"-lg", none)]

theorem asked_wanted : Wanted askedWords [b!"main.o"] [b!"lib/libg.a"] [(b!"lib/libf.so", false)] demoLinker where
  output := by decide +kernel
  dynamicLinker := by decide +kernel
  hashStyle := by decide +kernel
  objects := by decide +kernel
  archives := by
    intro p
    rw [show demoLinker.archives = [b!"lib/libg.a"].map Path.of by decide +kernel]
  libs := by decide +kernel

/-- The link of `dld main.o -L lib -lf -lg`: the executable asks for `libf.so`. -/
example : ∃ file, Linker.link demoEnv demoLinker LinkSched.id 5 = some (.ok file) ∧
    (∃ p, phdrsOf file 3 = [p] ∧ p.bytes file = b!"/lib64/ld-linux-x86-64.so.2" ++ [0]) ∧
    (∃ ns : List Name, neededNames (bodyNamed file b!".dynamic") (bodyNamed file b!".dynstr") = some b!"ld-linux-x86-64.so.2" :: ns.map some ∧
      ∀ n ∈ ns, n = b!"libf.so") ∧
    some b!"libf.so" ∈ neededNames (bodyNamed file b!".dynamic") (bodyNamed file b!".dynstr") := by
  obtain ⟨log, loaded, w, w', file, s, h1, h2, h3, hp⟩ := LinkRun.of_links (P := fun _ _ f _ => dynName f 1 == some b!"f") (fuel := 5) LinkSched.id_valid demo_files (by decide +kernel)
  have hlast : LastPart b!"lib/libf.so" b!"libf.so" := ⟨.inr ⟨b!"lib", rfl⟩, by decide, by decide⟩
  have hlibs : ∀ e ∈ [(b!"lib/libf.so", false)], ∃ n, LastPart e.1 n := by
    intro e he
    cases List.mem_singleton.1 he
    exact ⟨_, hlast⟩
  obtain ⟨⟨ns, hn, hns⟩, hd⟩ := C128_needed asked_wanted LinkSched.id_valid demo_files h2 demo_libraries h1 (ld := b!"ld-linux-x86-64.so.2")
    ⟨.inr ⟨b!"/lib64", by decide +kernel⟩, by decide, by decide⟩ hlibs
  refine ⟨file, h1, ?_, ⟨ns, hn, fun n h => ?_⟩, ?_⟩
  · exact C128_interpreter asked_wanted LinkSched.id_valid demo_files h2 h1
  · obtain ⟨e, he, hl⟩ := hns n h
    cases List.mem_singleton.1 he
    exact hl.unique hlast
  · obtain ⟨e, he, f, s, hl, _, hm⟩ := hd b!"f" 1 (by decide) (eq_of_beq hp)
    cases List.mem_singleton.1 he
    rw [← hl.unique hlast]
    exact hm

end Cli
end Dld
