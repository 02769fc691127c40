import Verif.Lemmas.Strongest
import Verif.Props.Files
/-! # Visibility, type and size of symbols: C134, and C11 for whole links -/
namespace Dld
open Writer Spec

variable {env : Env} {l : Linker} {sched : LinkSched} {loaded : List Loaded} {log : List Call} {w w' : Writer} {file : Bytes} {secs : List Section}
  {pre post : List Loaded} {x : Loaded}

/-- **C11** is violated by every link in which a file refers to a name before another one defines it with the same binding: the symbol of the output has the
type and size of the reference. -/
theorem C11_late_violated (R : LinkRun env l sched loaded log w w' file secs) (e : loaded = pre ++ x :: post) {j : Nat} {s : Sym} {n : Name}
    (hd : FirstStrongest pre x post j s n) {t : Sym} (_ht : MentionedIn loaded t n) (_h0 : s.st_shndx = 0) (_h1 : t.st_shndx ≠ 0) :
    ∃ y, symbolsNamed file n = [y] ∧ (t.st_size ≠ s.st_size → y.size ≠ t.st_size) ∧ (t.st_info % 16 ≠ s.st_info % 16 → y.info % 16 ≠ t.st_info % 16) := by
  obtain ⟨y, h1, h2, _, h4⟩ := R.strongest e hd
  exact ⟨y, h1, fun h => by rw [h4]; exact Ne.symm h, fun h => by rw [h2]; exact Ne.symm h⟩

/-- **C134, strictest visibility**, is violated by every link in which a mention of a name is stricter than the first of the strongest ones: a symbol that
some file declares hidden is not hidden in the output. -/
theorem C134_strictest_violated (R : LinkRun env l sched loaded log w w' file secs) (e : loaded = pre ++ x :: post) {j : Nat} {s : Sym} {n : Name}
    (hd : FirstStrongest pre x post j s n) {t : Sym} (_ht : MentionedIn loaded t n) (hs : strictness s.st_other < strictness t.st_other) :
    ∃ y, symbolsNamed file n = [y] ∧ strictness y.other < strictness t.st_other := by
  obtain ⟨y, h1, _, h3, _⟩ := R.strongest e hd
  exact ⟨y, h1, by rw [h3]; exact hs⟩

/-- **C134, strictest visibility**, what holds: the symbol of the output has the visibility of the first of the strongest mentions of its name. If no mention
is stricter than that one, this is the strictest of all. What is missing: stricter mentions elsewhere (`C134_strictest_violated`). -/
theorem C134_strictest_partial (R : LinkRun env l sched loaded log w w' file secs) (e : loaded = pre ++ x :: post) {j : Nat} {s : Sym} {n : Name}
    (hd : FirstStrongest pre x post j s n) (hs : ∀ t, MentionedIn loaded t n → strictness t.st_other ≤ strictness s.st_other) :
    ∃ y, symbolsNamed file n = [y] ∧ (∃ t, MentionedIn loaded t n ∧ t.st_other = y.other) ∧
      ∀ t, MentionedIn loaded t n → strictness t.st_other ≤ strictness y.other := by
  obtain ⟨y, h1, _, h3, _⟩ := R.strongest e hd
  have hx : x ∈ loaded := by rw [e]; simp
  refine ⟨y, h1, ⟨s, ⟨x, hx, List.mem_of_getElem? hd.symbol.1, hd.symbol.2⟩, h3.symm⟩, fun t ht => ?_⟩
  rw [h3]
  exact hs t ht

/-- **C134, every name**: whatever the files and their order, the one symbol of the output with the name has binding, type, visibility and size of a mention of
strongest binding. What is missing for the strictest visibility: `C134_strictest_violated`. -/
theorem C134_every_partial (R : LinkRun env l sched loaded log w w' file secs) {n : Name} (hn : n ≠ []) (ho : n ∉ linkerSymbols)
    (hm : ∃ t, MentionedIn loaded t n) (hb : ∀ t, MentionedIn loaded t n → t.st_info / 16 ≤ 2) :
    ∃ y s, symbolsNamed file n = [y] ∧ MentionedIn loaded s n ∧ (∀ t, MentionedIn loaded t n → Spec.bindRank t ≤ Spec.bindRank s) ∧
      y.info = s.st_info ∧ y.other = s.st_other ∧ y.size = s.st_size := by
  obtain ⟨pre, x, post, j, s, e, hd⟩ := FirstStrongest.exists hn ho hm hb
  obtain ⟨y, h1, h2, h3, h4⟩ := R.strongest e hd
  refine ⟨y, s, h1, ⟨x, by rw [e]; simp, List.mem_of_getElem? hd.symbol.1, hd.symbol.2⟩, fun t ht => ?_, h2, h3, h4⟩
  obtain ⟨z, hz, hts, htn⟩ := ht
  obtain ⟨i, hi⟩ := List.getElem?_of_mem hts
  exact (hd.binds z (by rw [← e]; exact hz) i t ⟨hi, htn⟩).2

/-- **C134, confinement**, is violated: a call of a function that the file declares hidden, and that must therefore be found in the linked files, leads
to a library if the files do not define it. -/
theorem C134_hidden_violated (R : LinkRun env l sched loaded log w w' file secs) (hc : CleanFiles env l) (e : loaded = pre ++ x :: post) {i : Nat} {m n : Name}
    {rel : InReloc} {s : Sym} (hr : Reference x i m rel s) (_hh : Confined s) (hn : x.elf.symName s.st_name = some n) (h3 : s.st_info % 16 ≠ 3)
    (hl : LibraryName loaded n) (h4 : relType rel.rela = 4) :
    ∃ o i' j k, sectionsNamed file m = [o] ∧ PltSlot file i' j k n ∧
      fieldOf file o (placeOf pre x m i + rel.r_offset) 4 =
        (addrNamed file b!".plt" + 16 * (i' + 1) : Nat) + rel.rela.r_addend - (o.addr + (placeOf pre x m i + rel.r_offset) : Nat) :=
  C113_call R hc e hr hn h3 hl h4

/-! ## Concrete cases -/

/-- the program of the earlier example, with `f` (of a library) and `g` (of the other file) declared hidden -/
def shyElf : ElfFile := { wholeElf with
  syms := [{}, { demoSym STT_FUNC 1 0 32 with st_name := 1 }, { demoSym 0 0 0 0 with st_name := 8, st_other := 2 },
    { demoSym 0 0 0 0 with st_name := 10, st_other := 2 }, { st_name := 0, st_info := 3, st_shndx := 3 }] }

def shyEnv : Env :=
  tableEnv [(Linker.calleePath, partBytes), (mainPath, wholeBytes), (libPath, b!"library")]
    [(partBytes, partElf), (wholeBytes, shyElf), (b!"library", libElf)] []

def shyLinker : Linker := { worldLinker with objects := [mainPath, Linker.calleePath] }

def shyFile (i : Nat) : Loaded := ⟨.object i, mainPath, wholeBytes, shyElf⟩

theorem shy_clean : CleanFiles shyEnv worldLinker := CleanFiles.of_table (by decide +kernel)
theorem shy_clean' : CleanFiles shyEnv shyLinker := CleanFiles.of_table (by decide +kernel)

theorem shy_run : ∃ log w w' f s, LinkRun shyEnv worldLinker LinkSched.id [partFile, shyFile 1] log w w' f s := by
  obtain ⟨log, loaded, w, w', f, s, _, _, h3, _⟩ := LinkRun.of_links (P := fun _ _ _ _ => true) (fuel := 5) LinkSched.id_valid shy_clean (by decide +kernel)
  have e := Linker.loaded_objects h3.calls rfl
  subst e
  exact ⟨log, w, w', f, s, h3⟩

/-- with the program in front of the file that defines `g` -/
theorem shy_run' : ∃ log w w' f s, LinkRun shyEnv shyLinker LinkSched.id [shyFile 0, { partFile with source := .object 1 }] log w w' f s := by
  obtain ⟨log, loaded, w, w', f, s, _, _, h3, _⟩ := LinkRun.of_links (P := fun _ _ _ _ => true) (fuel := 5) LinkSched.id_valid shy_clean' (by decide +kernel)
  have e := Linker.loaded_objects h3.calls rfl
  subst e
  exact ⟨log, w, w', f, s, h3⟩

/-- the mentions of `n` in both files, as a check -/
theorem shy_all {y : Loaded} {z : Loaded} (hz : z.elf = partElf) (hy : y = z ∨ ∃ i, y = shyFile i) {n : Name} {P : Nat → Sym → Prop} [∀ j s, Decidable (P j s)]
    (h : ([partElf, shyElf].all fun e => (List.range 6).all fun j => (e.syms[j]?).all fun s =>
      decide (e.symName s.st_name = some n → s.st_info % 16 ≠ 3 → P j s)) = true) {j : Nat} {s : Sym} (hs : SymbolOf y j s n) : P j s := by
  obtain ⟨h1, h2, h3⟩ := hs
  have hm : y.elf ∈ [partElf, shyElf] := by rcases hy with rfl | ⟨i, rfl⟩ <;> simp [hz, shyFile]
  rw [List.all_eq_true] at h
  have h := h _ hm
  rw [List.all_eq_true] at h
  have hj : j < 6 := by
    have := (List.getElem?_eq_some_iff.1 h1).1
    have hl : ∀ e ∈ [partElf, shyElf], e.syms.length < 6 := by decide
    have := hl _ hm
    omega
  have h := h j (List.mem_range.2 hj)
  rw [h1] at h
  simp only [Option.all_some, decide_eq_true_eq] at h
  exact h h2 h3

/-- the first of the strongest mentions of `g` is the definition in the first order of the files … -/
theorem shy_first : FirstStrongest [] partFile [shyFile 1] 1 { demoSym STT_FUNC 1 4 8 with st_name := 1 } b!"g" where
  named := by decide
  ordinary := by decide
  symbol := ⟨rfl, rfl, by decide⟩
  binds y hy j s hs := shy_all (z := partFile) (P := fun _ s => s.st_info / 16 ≤ 2 ∧ Spec.bindRank s ≤ Spec.bindRank { demoSym STT_FUNC 1 4 8 with st_name := 1 }) rfl (by
    simp only [List.nil_append, List.mem_cons, List.not_mem_nil, or_false] at hy
    exact hy.imp id fun h => ⟨1, h⟩) (by decide +kernel) hs
  before := by
    refine ⟨fun y hy => (by cases hy), fun j s hs hj => ?_⟩
    match j, hj, hs with
    | 0, _, ⟨h1, h2, _⟩ => cases h1; cases h2

/-- … and the reference in the other one -/
theorem shy_first' : FirstStrongest [] (shyFile 0) [{ partFile with source := .object 1 }] 3 { demoSym 0 0 0 0 with st_name := 10, st_other := 2 } b!"g" where
  named := by decide
  ordinary := by decide
  symbol := ⟨rfl, rfl, by decide⟩
  binds y hy j s hs := shy_all (z := { partFile with source := .object 1 })
    (P := fun _ s => s.st_info / 16 ≤ 2 ∧ Spec.bindRank s ≤ Spec.bindRank { demoSym 0 0 0 0 with st_name := 10, st_other := 2 }) rfl (by
    simp only [List.nil_append, List.mem_cons, List.not_mem_nil, or_false] at hy
    exact hy.symm.imp id fun h => ⟨0, h⟩) (by decide +kernel) hs
  before := by
    refine ⟨fun y hy => (by cases hy), fun j s hs hj => ?_⟩
    match j, hj, hs with
    | 0, _, ⟨h1, h2, _⟩ => cases h1; cases h2
    | 1, _, ⟨h1, h2, _⟩ => cases h1; exact absurd h2 (by decide)
    | 2, _, ⟨h1, h2, _⟩ => cases h1; exact absurd h2 (by decide)

/-- `C134_strictest_violated`: `g` is declared hidden by the program, and is not hidden in the output -/
example : ∃ log w w' f s y, LinkRun shyEnv worldLinker LinkSched.id [partFile, shyFile 1] log w w' f s ∧ symbolsNamed f b!"g" = [y] ∧ strictness y.other < 2 := by
  obtain ⟨log, w, w', f, s, R⟩ := shy_run
  obtain ⟨y, h1, h2⟩ := C134_strictest_violated R (pre := []) rfl shy_first (t := { demoSym 0 0 0 0 with st_name := 10, st_other := 2 })
    ⟨shyFile 1, by simp, by decide, rfl, by decide⟩ (by decide)
  exact ⟨log, w, w', f, s, y, R, h1, h2⟩

/-- `C134_strictest_partial`, `C11_late_violated`: in the other order it is hidden, but it is no function and has no size -/
example : ∃ log w w' f s y, LinkRun shyEnv shyLinker LinkSched.id [shyFile 0, { partFile with source := .object 1 }] log w w' f s ∧ symbolsNamed f b!"g" = [y] ∧
    2 ≤ strictness y.other ∧ y.size ≠ 8 ∧ y.info % 16 ≠ 2 := by
  obtain ⟨log, w, w', f, s, R⟩ := shy_run'
  have hin : MentionedIn [shyFile 0, { partFile with source := .object 1 }] { demoSym 0 0 0 0 with st_name := 10, st_other := 2 } b!"g" :=
    ⟨shyFile 0, by simp, by decide, rfl, by decide⟩
  obtain ⟨y, h1, _, h2⟩ := C134_strictest_partial R (pre := []) rfl shy_first' (by
    rintro t ⟨y, hy, ht, hn, h3⟩
    obtain ⟨j, hj⟩ := List.getElem?_of_mem ht
    exact shy_all (z := { partFile with source := .object 1 }) (P := fun _ s => strictness s.st_other ≤ 2) rfl (by
      simp only [List.mem_cons, List.not_mem_nil, or_false] at hy
      exact hy.symm.imp id fun h => ⟨0, h⟩) (by decide +kernel) ⟨hj, hn, h3⟩)
  obtain ⟨y', h1', h3, h4⟩ := C11_late_violated R (pre := []) rfl shy_first' (t := { demoSym STT_FUNC 1 4 8 with st_name := 1 })
    ⟨{ partFile with source := .object 1 }, by simp, by decide, rfl, by decide⟩ rfl (by decide)
  rw [h1] at h1'
  cases h1'
  exact ⟨log, w, w', f, s, _, R, h1, h2 _ hin, h3 (by decide), h4 (by decide)⟩

/-- `C134_hidden_violated`: the call of the hidden `f` leads to the PLT entry of the library's `f` -/
example : ∃ log w w' f s i j k, LinkRun shyEnv worldLinker LinkSched.id [partFile, shyFile 1] log w w' f s ∧ PltSlot f i j k b!"f" := by
  obtain ⟨log, w, w', f, s, R⟩ := shy_run
  obtain ⟨o, i, j, k, _, h, _⟩ := C134_hidden_violated R shy_clean (pre := [partFile]) (post := []) rfl (i := 1) (m := b!".text")
    (rel := ⟨1, some (-4), 2, R_X86_64_PLT32⟩) (s := { demoSym 0 0 0 0 with st_name := 8, st_other := 2 })
    ⟨⟨_, ⟨rfl, by decide, rfl, by decide⟩, by decide⟩, ⟨by decide, 0, 0, by decide⟩, by unfold ElfFile.RelocsApart; decide +kernel, rfl⟩
    (by decide) (n := b!"f") rfl (by decide) ⟨by decide, by decide, ⟨_, shyFile 1, by simp, List.mem_of_getElem? (i := 2) rfl, rfl, by decide⟩, by
      rintro t ⟨y, hy, ht, hn, h3⟩
      obtain ⟨j, hj⟩ := List.getElem?_of_mem ht
      exact shy_all (z := partFile) (P := fun _ s => s.st_shndx = 0 ∧ (s.st_info / 16 = 1 ∨ s.st_info / 16 = 2)) rfl (by
        simp only [List.mem_cons, List.not_mem_nil, or_false] at hy
        exact hy.imp id fun h => ⟨1, h⟩) (by decide +kernel) ⟨hj, hn, h3⟩⟩ (by decide)
  exact ⟨log, w, w', f, s, i, j, k, R, h⟩

/-- `C134_every_partial`: whichever file comes first, `g` has the visibility of one of its global mentions -/
example : ∃ log w w' f s y t, LinkRun shyEnv shyLinker LinkSched.id [shyFile 0, { partFile with source := .object 1 }] log w w' f s ∧ symbolsNamed f b!"g" = [y] ∧
    MentionedIn [shyFile 0, { partFile with source := .object 1 }] t b!"g" ∧ y.other = t.st_other := by
  obtain ⟨log, w, w', f, s, R⟩ := shy_run'
  obtain ⟨y, t, h1, h2, _, _, h3, _⟩ := C134_every_partial R (n := b!"g") (by decide) (by decide)
    ⟨_, shyFile 0, by simp, by decide, (rfl : shyElf.symName (Sym.st_name { demoSym 0 0 0 0 with st_name := 10, st_other := 2 }) = _), by decide⟩
    (fun t ⟨y, hy, h1, h2⟩ => by
      simp only [List.mem_cons, List.not_mem_nil, or_false] at hy
      have hm : y.elf ∈ [partElf, shyElf] := by rcases hy with rfl | rfl <;> simp [shyFile, partFile]
      exact (by decide : ∀ e ∈ [partElf, shyElf], ∀ t ∈ e.syms, t.st_info / 16 ≤ 2) _ hm t h1)
  exact ⟨log, w, w', f, s, y, t, R, h1, h2, h3⟩

end Dld
