import Verif.Lemmas.LinkGood
import Verif.Lemmas.Check
/-! # Concrete inputs of the driver, used to show that the hypotheses of the theorems can be met -/
namespace Dld
open Writer Spec

/-- a world given by tables -/
def tableEnv (files : List (Path × Bytes)) (elfs : List (Bytes × ElfFile)) (ars : List (Bytes × ArFile)) : Env :=
  { read := AMap.get? files, parseElf := AMap.get? elfs, parseAr := AMap.get? ars }

/-- a check of what `CleanFiles` asks of a file -/
def cleanElf (e : ElfFile) : Bool :=
  (e.sectionHeaders[0]?.all fun sh => e.secName sh.sh_name == some []) &&
  e.sectionHeaders.all (fun sh => auxiliaryTypes.contains sh.sh_type || (e.secName sh.sh_name).all fun n =>
    !n.contains 0 && !reservedNames.contains n && sh.sh_flags != 1 && (n != [] || sh.sh_size == 0)) &&
  e.syms.all (fun s => (e.symName s.st_name).all fun n => !n.contains 0 && (n != [] || s.st_shndx != 0 || (s.st_info / 16 != 1 && s.st_info / 16 != 2))) &&
  e.dynsyms.all (fun s => (e.dynName s.st_name).all fun n => !n.contains 0 && s.st_info % 16 != 3)

/-- a check that sections of one name agree on being `SHT_NOBITS` -/
def sameNobits (e e' : ElfFile) : Bool :=
  e.sectionHeaders.all fun sh => e'.sectionHeaders.all fun sh' =>
    auxiliaryTypes.contains sh.sh_type || auxiliaryTypes.contains sh'.sh_type || e.secName sh.sh_name == none ||
      e.secName sh.sh_name != e'.secName sh'.sh_name || (sh.sh_type == 8) == (sh'.sh_type == 8)

theorem IsInput.of_table {files : List (Path × Bytes)} {elfs : List (Bytes × ElfFile)} {ars : List (Bytes × ArFile)} {l : Linker} {e : ElfFile}
    (h : IsInput (tableEnv files elfs ars) l e) : e ∈ elfs.map (·.2) := by
  cases h with
  | object hp hd he ho => exact List.mem_map.2 ⟨_, AMap.mem_of_get? he, rfl⟩
  | member hp hd ha hm he ho => exact List.mem_map.2 ⟨_, AMap.mem_of_get? he, rfl⟩

theorem CleanFiles.of_table {files : List (Path × Bytes)} {elfs : List (Bytes × ElfFile)} {ars : List (Bytes × ArFile)} {l : Linker}
    (h : (elfs.all fun e => cleanElf e.2 && elfs.all fun e' => sameNobits e.2 e'.2) = true) : CleanFiles (tableEnv files elfs ars) l := by
  have hall : ∀ e ∈ elfs.map (·.2), cleanElf e = true ∧ ∀ e' ∈ elfs.map (·.2), sameNobits e e' = true := by
    intro e he
    obtain ⟨x, hx, rfl⟩ := List.mem_map.1 he
    have := List.all_eq_true.1 h x hx
    rw [Bool.and_eq_true] at this
    refine ⟨this.1, ?_⟩
    intro e' he'
    obtain ⟨y, hy, rfl⟩ := List.mem_map.1 he'
    exact List.all_eq_true.1 this.2 y hy
  have hsec : ∀ e sh n, e ∈ elfs.map (·.2) → e.Copies sh n → (0 : UInt8) ∉ n ∧ n ∉ reservedNames ∧ sh.sh_flags ≠ 1 ∧ (n = [] → sh.sh_size = 0) := by
    intro e sh n he hc
    have := (hall e he).1
    simp only [cleanElf, Bool.and_eq_true, List.all_eq_true] at this
    have := this.1.1.2 sh hc.1
    rw [hc.2.2, Bool.or_eq_true] at this
    rcases this with h | h
    · exact absurd (by simpa using h) hc.2.1
    · simp only [Option.all_some, Bool.and_eq_true, Bool.or_eq_true] at h
      obtain ⟨⟨⟨h1, h2⟩, h3⟩, h4⟩ := h
      refine ⟨by simpa using h1, by simpa using h2, by simpa using h3, ?_⟩
      rintro rfl
      simpa using h4
  refine ⟨?_, ?_, ?_, ?_, ?_, ?_⟩
  · intro e sh n he hc
    obtain ⟨a, b, c, _⟩ := hsec e sh n he.of_table hc
    exact ⟨a, b, c⟩
  · intro e sh he hs
    have := (hall e he.of_table).1
    simp only [cleanElf, Bool.and_eq_true] at this
    have := this.1.1.1
    rw [hs] at this
    simpa using this
  · intro e sh he hc
    exact (hsec e sh [] he.of_table hc).2.2.2 rfl
  · intro e sh e' sh' n he hc he' hc'
    have := (hall e he.of_table).2 e' he'.of_table
    simp only [sameNobits, List.all_eq_true, Bool.or_eq_true] at this
    rcases this sh hc.1 sh' hc'.1 with (((h | h) | h) | h) | h
    · exact absurd (by simpa using h) hc.2.1
    · exact absurd (by simpa using h) hc'.2.1
    · rw [hc.2.2] at h; simp at h
    · rw [hc.2.2, hc'.2.2] at h; simp at h
    · have := eq_of_beq h
      rw [Bool.eq_iff_iff] at this
      simpa using this
  · intro e s n he hs hn
    have := (hall e he.of_table).1
    simp only [cleanElf, Bool.and_eq_true, List.all_eq_true] at this
    have := this.1.2 s hs
    rw [hn] at this
    simp only [Option.all_some, Bool.and_eq_true, Bool.or_eq_true] at this
    refine ⟨by simpa using this.1, ?_⟩
    rintro rfl h0
    simpa [h0] using this.2
  · rintro p s n ⟨_, data, e, _, he, hs, hn⟩
    have := (hall e (List.mem_map.2 ⟨_, AMap.mem_of_get? he, rfl⟩)).1
    simp only [cleanElf, Bool.and_eq_true, List.all_eq_true] at this
    have := this.2 s hs
    rw [hn] at this
    simpa using this

/-- run a link, and check its result -/
def links (env : Env) (l : Linker) (sched : LinkSched) (fuel : Nat) (P : Writer → Writer → Bytes → List Section → Bool) : Bool :=
  match Linker.gathered env l sched fuel with
  | some (.ok w) =>
    match w.computeSections sched.toSched with
    | .ok w' =>
      match w'.writeToDisk sched.toSched with
      | .ok (f, s) => (w'.undefinedSymbols sched.symIter == []) && (numbersFit w w' f s && (linkFits w w' && P w w' f s))
      | .error _ => false
    | .error _ => false
  | _ => false

/-- a concrete link that satisfies a decidable condition -/
theorem LinkRun.of_links {env : Env} {l : Linker} {sched : LinkSched} {fuel : Nat} {P : Writer → Writer → Bytes → List Section → Bool}
    (hv : sched.Valid) (hc : CleanFiles env l) (h : links env l sched fuel P = true) :
    ∃ log loaded w w' f s, Linker.link env l sched fuel = some (.ok f) ∧ Linker.Fits env l sched fuel ∧
      LinkRun env l sched loaded log w w' f s ∧ P w w' f s = true := by
  unfold links at h
  split at h
  · next w hg =>
    split at h
    · next w' hc' =>
      split at h
      · next f s hw =>
        simp only [Bool.and_eq_true] at h
        obtain ⟨h0, h1, h2, hP⟩ := h
        have h0 : w'.undefinedSymbols sched.symIter = [] := by simpa using h0
        obtain ⟨n1, n2⟩ := numbersFit_ok h1
        simp only [linkFits, Bool.and_eq_true, List.all_eq_true, decide_eq_true_eq] at h2
        obtain ⟨⟨⟨⟨⟨a, b⟩, c⟩, d⟩, e⟩, f'⟩ := h2
        have hlf : LinkFits w w' f s := ⟨n1, n2, a, b, c, d, e, f'⟩
        have hfit : Linker.Fits env l sched fuel := by
          intro x x' g t hx hx' ht
          rw [hg] at hx; cases hx
          rw [hc'] at hx'; cases hx'
          rw [hw] at ht; cases ht
          exact hlf
        have hlink : Linker.link env l sched fuel = some (.ok f) := by
          rw [Linker.link_eq, hg]
          show some (Linker.finish l sched w) = _
          simp only [Linker.finish, hc', ok_bind, h0, hw]
          rfl
        obtain ⟨log, loaded, x, x', t, hg', h3, h4, h5⟩ := Linker.link_ok hv hlink
        rw [hg] at hg'; cases hg'
        have e1 := h4.compute; rw [hc'] at e1; cases e1
        have e2 := h4.write; rw [hw] at e2; cases e2
        have h6 := Linker.calls_spec hv h3 h4.hist a
        exact ⟨log, loaded, _, _, f, s, hlink, hfit, ⟨h6, ⟨⟨h4, h6.good hc, h6.namesClean hc, n1, n2⟩, a, b, c, d, e, f',
          h6.symsClean hc, h6.namedDyns hc⟩, h5⟩, hP⟩
      · cases h
    · cases h
  · cases h

theorem LinkSched.id_valid : LinkSched.id.Valid := ⟨Sched.id_valid, fun _ _ _ => .rfl, fun _ _ _ => .rfl, fun _ _ _ => .rfl, fun _ => .rfl⟩

/-! ### An object that calls a function of a shared library and one of an archive member -/

/-- a program: calls `f` and `g` -/
def mainElf : ElfFile where
  isObjectFile := true
  sectionHeaders :=
    [{}, { demoSh SHT_PROGBITS 6 16 16 with sh_name := 1 }, { demoSh SHT_RELA 0 48 8 with sh_name := 7, sh_info := 1 }]
  secName := AMap.get? [(0, []), (1, b!".text"), (7, b!".rela.text")]
  syms := [{}, { demoSym STT_FUNC 1 4 12 with st_name := 1 }, { demoSym 0 0 0 0 with st_name := 8 }, { demoSym 0 0 0 0 with st_name := 10 }]
  symName := AMap.get? [(0, []), (1, b!"_start"), (8, b!"f"), (10, b!"g")]
  shdrRelocs := [(2, [⟨5, some (-4), 2, R_X86_64_PLT32⟩, ⟨10, some (-4), 3, R_X86_64_PLT32⟩])]
  dynsyms := []
  dynName := fun _ => none

/-- a shared library with `f` -/
def libElf : ElfFile where
  isObjectFile := false
  sectionHeaders := []
  secName := fun _ => none
  syms := []
  symName := fun _ => none
  shdrRelocs := []
  dynsyms := [{}, { demoSym STT_FUNC 5 0x1000 4 with st_name := 1 }]
  dynName := AMap.get? [(0, []), (1, b!"f")]

/-- an object file with `g` -/
def memberElf : ElfFile where
  isObjectFile := true
  sectionHeaders := [{}, { demoSh SHT_PROGBITS 6 8 8 with sh_name := 1 }]
  secName := AMap.get? [(0, []), (1, b!".text")]
  syms := [{}, { demoSym STT_FUNC 1 0 8 with st_name := 1 }]
  symName := AMap.get? [(0, []), (1, b!"g")]
  shdrRelocs := []
  dynsyms := []
  dynName := fun _ => none

def mainPath : Path := ⟨b!"main.o", some b!"main.o"⟩
def libPath : Path := ⟨b!"lib/libf.so", some b!"libf.so"⟩
def arPath : Path := ⟨b!"lib/libg.a", some b!"libg.a"⟩

/-- the files -/
def demoEnv : Env :=
  tableEnv [(mainPath, List.replicate 16 0x90), (libPath, b!"library"), (arPath, b!"archive")]
    [(List.replicate 16 0x90, mainElf), (b!"library", libElf), (List.replicate 8 0xc3, memberElf)]
    [(b!"archive", { index := [(b!"g", b!"g.o")], get := AMap.get? [(b!"g.o", List.replicate 8 0xc3)] })]

/-- the command line -/
def demoLinker : Linker :=
  { options := { Options.default with sharedLibs := [(libPath, false)] }, objects := [mainPath], archives := [arPath] }

theorem demo_files : CleanFiles demoEnv demoLinker := CleanFiles.of_table (by decide +kernel)

theorem demo_links : links demoEnv demoLinker LinkSched.id 5 (fun _ _ _ _ => true) = true := by decide +kernel

end Dld
