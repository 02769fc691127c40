import Verif.Lemmas.Blame
import Verif.Lemmas.DemoLink
/-! # What the linker's errors mean -/
namespace Dld
open Writer Spec

/-- a second object file with a definition of `_start` -/
def twiceElf : ElfFile where
  isObjectFile := true
  sectionHeaders := [{}, { demoSh SHT_PROGBITS 6 4 4 with sh_name := 1 }]
  secName := AMap.get? [(0, []), (1, b!".text")]
  syms := [{}, { demoSym STT_FUNC 1 0 4 with st_name := 1 }]
  symName := AMap.get? [(0, []), (1, b!"_start")]
  shdrRelocs := []
  dynsyms := []
  dynName := fun _ => none

def twicePath : Path := ⟨b!"twice.o", some b!"twice.o"⟩

/-- the files of `demoEnv` and that object file -/
def twiceEnv : Env :=
  tableEnv [(mainPath, List.replicate 16 0x90), (twicePath, List.replicate 4 0xc3)]
    [(List.replicate 16 0x90, mainElf), (List.replicate 4 0xc3, twiceElf)] []

def twiceLinker : Linker := { options := Options.default, objects := [mainPath, twicePath], archives := [] }

namespace Linker
variable {env : Env} {l : Linker} {sched : LinkSched} {fuel : Nat}

/-- C83. Every error the linker returns is justified by the contents of the input file it names, or is the error about unresolved symbols, which
names the output file. -/
theorem C83_blame (hv : sched.Valid) {p : Path} {k : ErrKind} (h : link env l sched fuel = some (.error (.err p k))) :
    (p = l.options.output ∧ ∃ names, k = .undefined names) ∨ Blame env l p k := by
  rcases link_gathered h with ⟨e, hg, he⟩ | ⟨w, hg, hf⟩
  · cases he
    rcases gathered_safe hv hg with h | ⟨p', k', h, hb⟩
    · cases h
    · cases h; exact .inr hb
  · rcases finish_error hf with h | ⟨_, names, _, _, _, h⟩
    · cases h
    · cases h; exact .inl ⟨rfl, names, rfl⟩

/-- the error about unresolved symbols does not come from the first part of a link -/
theorem gathered_undefined (hv : sched.Valid) {p : Path} {names : List Name} :
    gathered env l sched fuel ≠ some (.error (.err p (.undefined names))) := by
  intro hg
  rcases gathered_safe hv hg with h | ⟨p', k', h, hb⟩
  · cases h
  · cases h; cases hb

end Linker

/-- two definitions: the error names the second file, and is justified -/
example : ∃ n ref, Linker.link twiceEnv twiceLinker LinkSched.id 5 = some (.error (.err twicePath (.alreadyDefined n ref))) ∧
    Blame twiceEnv twiceLinker twicePath (.alreadyDefined n ref) := by
  have h : Linker.link twiceEnv twiceLinker LinkSched.id 5 = some (.error (.err twicePath (.alreadyDefined b!"_start" mainPath))) := by
    decide +kernel
  refine ⟨_, _, h, ?_⟩
  rcases Linker.C83_blame LinkSched.id_valid h with ⟨_, _, h⟩ | h
  · cases h
  · exact h

/-- a file that is not there -/
example : Linker.link twiceEnv { twiceLinker with objects := [mainPath, libPath] } LinkSched.id 5 = some (.error (.err libPath .input)) := by
  decide +kernel

/-! ### The duplicate definition error can name the wrong file -/

/-- an object file that only uses `f` -/
def usesElf : ElfFile where
  isObjectFile := true
  sectionHeaders := [{}]
  secName := AMap.get? [(0, [])]
  syms := [{}, { demoSym 0 0 0 0 with st_name := 1 }]
  symName := AMap.get? [(0, []), (1, b!"_start")]
  shdrRelocs := []
  dynsyms := []
  dynName := fun _ => none

def usesPath : Path := ⟨b!"uses.o", some b!"uses.o"⟩

def wrongEnv : Env :=
  tableEnv [(usesPath, [1]), (mainPath, List.replicate 16 0x90), (twicePath, List.replicate 4 0xc3)]
    [([1], usesElf), (List.replicate 16 0x90, mainElf), (List.replicate 4 0xc3, twiceElf)] []

def wrongLinker : Linker := { options := Options.default, objects := [usesPath, mainPath, twicePath], archives := [] }

/-- the file `p` has a definition of `n` -/
def DefinesSym (env : Env) (l : Linker) (p : Path) (n : Name) : Prop :=
  ∃ d j s, InputSym env l p d j s n ∧ s.st_shndx ≠ 0

/-- C84 (violated). The error about two definitions says that the symbol is already defined in `uses.o`, which does not define it. -/
theorem C84_reference_violated : ∃ (env : Env) (l : Linker) (p ref : Path) (n : Name),
    Linker.link env l LinkSched.id 5 = some (.error (.err p (.alreadyDefined n ref))) ∧ ¬ DefinesSym env l ref n := by
  refine ⟨wrongEnv, wrongLinker, twicePath, usesPath, b!"_start", by decide +kernel, ?_⟩
  rintro ⟨d, j, s, ⟨e, hi, hj, hn, _⟩, h0⟩
  cases hi with
  | object hp hd he ho =>
    have : wrongEnv.read usesPath = some [1] := by decide +kernel
    rw [this] at hd
    cases hd
    have : e = usesElf := Option.some.inj (he.symm.trans rfl)
    subst this
    refine h0 ?_
    match j, hj with
    | 0, hj => cases hj; rfl
    | 1, hj => cases hj; rfl
    | j + 2, hj => cases hj
  | member hp => cases hp

namespace Linker
variable {env : Env} {l : Linker} {sched : LinkSched} {fuel : Nat}

/-- C84, partial: the file the error is about has a global definition of the symbol, another symbol of that name is defined, another one is global,
and the file said to define it already at least mentions it. Missing: that this file has the definition. -/
theorem C84_reference_partial (hv : sched.Valid) (hs : NamesSmall env l) {p ref : Path} {n : Name} (hn : n ≠ [])
    (h : link env l sched fuel = some (.error (.err p (.alreadyDefined n ref)))) :
    ∃ d j s, InputSym env l p d j s n ∧ s.st_info / 16 = 1 ∧ s.st_shndx ≠ 0 ∧
      (∃ p' d' j' s', InputSym env l p' d' j' s' n ∧ OtherSym l p' d' j' p d j ∧ s'.st_shndx ≠ 0) ∧
      (∃ p' d' j' s', InputSym env l p' d' j' s' n ∧ OtherSym l p' d' j' p d j ∧ s'.st_info / 16 = 1) ∧
      (∃ d' j' s', InputSym env l ref d' j' s' n ∧ OtherSym l ref d' j' p d j) := by
  rcases C83_blame hv h with ⟨_, _, h⟩ | h
  · cases h
  · cases h with
    | duplicate h1 h2 h3 h4 h5 h6 => exact ⟨_, _, _, h1, h2, h3, h4 hs, h5 hs, h6 hs hn⟩

end Linker

theorem sublist_sum {a b : List Nat} (h : a.Sublist b) : a.sum ≤ b.sum := by
  induction h with
  | slnil => exact Nat.le_refl _
  | cons x _ ih => rw [List.sum_cons]; omega
  | cons_cons x _ ih => rw [List.sum_cons, List.sum_cons]; omega

theorem names_small : NamesSmall wrongEnv wrongLinker := by
  intro ns hd hn
  have hsub : ∀ n ∈ ns, n ∈ [[], b!"_start", b!"f", b!"g"] := by
    intro n hm
    rcases hn n hm with rfl | ⟨p, d, e, s, hi, hs, hn⟩
    · simp
    · have he : e ∈ [usesElf, mainElf, twiceElf] := by
        cases hi with
        | object hp hd he ho =>
          have := AMap.mem_of_get? he
          simp only [List.mem_cons, List.not_mem_nil, or_false, Prod.mk.injEq] at this ⊢
          rcases this with h | h | h <;> simp [h.2]
        | member hp => cases hp
      simp only [List.mem_cons, List.not_mem_nil, or_false] at he
      rcases he with rfl | rfl | rfl
      · simp only [usesElf, List.mem_cons, List.not_mem_nil, or_false] at hs
        rcases hs with rfl | rfl <;> (cases hn; simp)
      · simp only [mainElf, List.mem_cons, List.not_mem_nil, or_false] at hs
        rcases hs with rfl | rfl | rfl | rfl <;> (cases hn; simp)
      · simp only [twiceElf, List.mem_cons, List.not_mem_nil, or_false] at hs
        rcases hs with rfl | rfl <;> (cases hn; simp)
  have : (ns.map (·.length + 1)).sum ≤ ([[], b!"_start", b!"f", b!"g"].map (·.length + 1)).sum := by
    obtain ⟨t, h1, h2⟩ : ∃ t : List Name, ns.Perm t ∧ t.Sublist [[], b!"_start", b!"f", b!"g"] :=
      ⟨[[], b!"_start", b!"f", b!"g"].filter (· ∈ ns), by
        refine (List.perm_ext_iff_of_nodup hd ((by decide : [[], b!"_start", b!"f", b!"g"].Nodup).filter _)).2 fun a => ?_
        rw [List.mem_filter]
        constructor
        · exact fun h => ⟨hsub a h, by simpa using h⟩
        · exact fun h => by simpa using h.2, List.filter_sublist⟩
    rw [(h1.map _).sum_nat]
    exact sublist_sum (h2.map _)
  refine Nat.lt_of_le_of_lt this (by decide)

example : ∃ d j s, InputSym wrongEnv wrongLinker twicePath d j s b!"_start" ∧ s.st_info / 16 = 1 ∧ s.st_shndx ≠ 0 := by
  have h : Linker.link wrongEnv wrongLinker LinkSched.id 5 = some (.error (.err twicePath (.alreadyDefined b!"_start" usesPath))) := by
    decide +kernel
  obtain ⟨d, j, s, h1, h2, h3, _⟩ := Linker.C84_reference_partial LinkSched.id_valid names_small (by decide) h
  exact ⟨d, j, s, h1, h2, h3⟩

end Dld
