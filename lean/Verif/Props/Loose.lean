import Verif.Props.Fixed
/-! # C125, C126: relocations without a symbol, and the names of libraries -/
namespace Dld
open Writer Spec

variable {env : Env} {l : Linker} {sched : LinkSched} {loaded pre post : List Loaded} {log : List Call} {w w' : Writer} {file : Bytes}
  {secs : List Section} {x : Loaded}

/-- **C125 is violated** by every link with a relocation that has no symbol: its field is left as it is in the file, whatever the addend is. -/
theorem C125_symbolless_violated (R : LinkRun env l sched loaded log w w' file secs) (hc : CleanFiles env l) (e : loaded = pre ++ x :: post) {i : Nat}
    {sh : SectionHeader} {n : Name} (S : SectionOf x i sh n) (h8 : sh.sh_type ≠ 8) {k j : Nat} {rel : InReloc} (_ : (k, i + 1, j, rel) ∈ x.elf.relocs)
    (_ : rel.r_sym = 0) {width : Nat} (hin : rel.r_offset + width ≤ sh.sh_size)
    (hcl : ∀ b < width, ∀ rel', x.elf.RelocOf i rel' → ¬ MayPatch rel'.rela (rel.r_offset + b)) :
    ∃ o, sectionsNamed file n = [o] ∧ ∀ b < width, (bodyOf file o)[placeOf pre x n i + (rel.r_offset + b)]? = x.data[sh.sh_offset + (rel.r_offset + b)]? := by
  obtain ⟨o, h1, _, h2⟩ := C111_contents R hc e S
  exact ⟨o, h1, fun b hb => (h2 h8).2.2 _ (by omega) (hcl b hb)⟩

/-- **C125, what holds**: the field of a relocation that has a symbol, for example an absolute symbol of value 0, gets the addend added to the symbol's
value. What is missing: relocations without a symbol (`C125_symbolless_violated`). -/
theorem C125_zero_partial {pre' post' : List Loaded} {x' : Loaded} (R : LinkRun env l sched loaded log w w' file secs) (hc : CleanFiles env l)
    (e : loaded = pre ++ x :: post) {i : Nat} {m n : Name}
    {rel : InReloc} {s : Sym} (hr : Reference x i m rel s) (hn : x.elf.symName s.st_name = some n) (h3 : s.st_info % 16 ≠ 3) (ho : OwnName env l n)
    (e' : loaded = pre' ++ x' :: post') {j : Nat} {d : Sym} (hd : FixedDefinition pre' x' post' j d n) (habs : d.st_shndx = 0xfff1) (h0 : d.st_value = 0) :
    ∃ o, sectionsNamed file m = [o] ∧ Reaches file o (placeOf pre x m i + rel.r_offset) rel.rela 0 := by
  rw [← h0]
  exact C121_reference R hc e hr hn h3 ho e' hd habs

/-- **C126 is violated** by every link: the executable asks for its libraries by the names of their files, and never by the names that the libraries
have themselves (`DT_SONAME`), if these differ. `s` is any name that is not the name of a file given to the linker. -/
theorem C126_soname_violated (R : LinkRun env l sched loaded log w w' file secs) (hl : Linker.LibraryNames env l) {s : Name}
    (hi : l.options.dynamicLinker.file ≠ some s) (hs : ∀ p ∈ l.options.sharedLibs.map (·.1), p.file ≠ some s) :
    some s ∉ neededNames (bodyNamed file b!".dynamic") (bodyNamed file b!".dynstr") := by
  intro hm
  obtain ⟨d, t, g, k1, k2, k3, k4, _⟩ := C52_needed R.good.toGoodRun (by
    intro m hm
    obtain ⟨p, e, n, r, hp, hpm⟩ := R.calls.needed_import hm
    exact (hl.libs p (R.calls.dynsym hpm).1.1 m hp).1) hl.linker
  rw [(sectionNamed_one k1).2.1, (sectionNamed_one k2).2.1, k4, List.mem_map] at hm
  obtain ⟨m, hm, hms⟩ := hm
  cases hms
  rcases List.mem_cons.1 hm with rfl | hm
  · exact hi k3
  · obtain ⟨p, e, n, r, hp, hpm⟩ := R.calls.needed_import (mem_newlyNeeded_sub hm)
    exact hs p (R.calls.dynsym hpm).1.1 hp

/-- **C126, what holds**: if the libraries' own names are the names of their files, a library that has a dynamic symbol of the executable is asked for by
its own name. What is missing: other names (`C126_soname_violated`). -/
theorem C126_soname_partial (hv : sched.Valid) (hc : CleanFiles env l) {fuel : Nat} (hf : Linker.Fits env l sched fuel) (hl : Linker.LibraryNames env l)
    (h : Linker.link env l sched fuel = some (.ok file)) {soname : Path → Option Name} (hs : ∀ p ∈ l.options.sharedLibs.map (·.1), soname p = p.file)
    {n : Name} (hn : n ≠ []) {k : Nat} (hk : dynName file k = some n) :
    ∃ p s f, LibraryHas env l p s n ∧ soname p = some f ∧ some f ∈ neededNames (bodyNamed file b!".dynamic") (bodyNamed file b!".dynstr") := by
  obtain ⟨p, s, f, h1, h2, h3⟩ := Linker.C62_needed_partial hv hc hf hl h (.inl ⟨hn, k, hk⟩)
  exact ⟨p, s, f, h1, by rw [hs p h1.1, h2], h3⟩

/-- a program with two words in its data: one is to be 0x1000, the other 0x2000 more than the absolute symbol `z`, which is 0 -/
def looseElf : ElfFile where
  isObjectFile := true
  sectionHeaders :=
    [{}, { demoSh SHT_PROGBITS 6 8 4 with sh_name := 1 }, { demoSh SHT_PROGBITS 3 16 8 with sh_name := 18, sh_offset := 8 },
      { demoSh SHT_RELA 0 48 8 with sh_name := 24, sh_info := 2 }]
  secName := AMap.get? [(0, []), (1, b!".text"), (18, b!".data"), (24, b!".rela.data")]
  syms := [{}, { demoSym STT_FUNC 1 0 8 with st_name := 1 }, { demoSym 0 0xfff1 0 0 with st_name := 8 }]
  symName := AMap.get? [(0, []), (1, b!"_start"), (8, b!"z")]
  shdrRelocs := [(3, [⟨0, some 0x1000, 0, R_X86_64_64⟩, ⟨8, some 0x2000, 2, R_X86_64_64⟩])]
  dynsyms := []
  dynName := fun _ => none

def looseBytes : Bytes := List.replicate 8 0xc3 ++ List.replicate 16 0

def looseEnv : Env := tableEnv [(mainPath, looseBytes)] [(looseBytes, looseElf)] []

def looseLinker : Linker := { options := Options.default, objects := [mainPath], archives := [] }

theorem loose_clean : CleanFiles looseEnv looseLinker := CleanFiles.of_table (by decide +kernel)

def looseFile : Loaded := ⟨.object 0, mainPath, looseBytes, looseElf⟩

theorem loose_run : ∃ log w w' f s, Linker.link looseEnv looseLinker LinkSched.id 5 = some (.ok f) ∧
    LinkRun looseEnv looseLinker LinkSched.id [looseFile] log w w' f s := by
  obtain ⟨log, loaded, w, w', f, s, h1, h2, h3, hp⟩ := LinkRun.of_links (P := fun _ _ _ _ => true) (fuel := 5) LinkSched.id_valid loose_clean (by decide +kernel)
  have e := Linker.loaded_objects h3.calls rfl
  subst e
  exact ⟨log, w, w', f, s, h1, h3⟩

theorem loose_zero : FixedDefinition [] looseFile [] 2 { demoSym 0 0xfff1 0 0 with st_name := 8 } b!"z" :=
  .of_check (by decide +kernel) (by decide) (by decide) ⟨rfl, rfl, by decide⟩ (by decide) (.inl rfl)

/-- `C125`: the first word stays 0, the second becomes 0x2000 -/
example : ∃ log w w' f s, LinkRun looseEnv looseLinker LinkSched.id [looseFile] log w w' f s ∧
    (∃ o, sectionsNamed f b!".data" = [o] ∧ ∀ b < 8, (bodyOf f o)[b]? = some 0) ∧
    ∃ o, sectionsNamed f b!".data" = [o] ∧ Reaches f o 8 ⟨8, 2 ^ 32 * 2 + 1, 0x2000⟩ 0 := by
  obtain ⟨log, w, w', f, s, _, R⟩ := loose_run
  obtain ⟨o, h1, h2⟩ := C125_symbolless_violated R loose_clean (pre := []) (x := looseFile) (post := []) rfl (i := 2) (n := b!".data")
    ⟨rfl, by decide, rfl, by decide⟩ (by decide) (k := 0) (j := 0) (rel := ⟨0, some 0x1000, 0, R_X86_64_64⟩) (by decide) rfl (width := 8) (by decide) (by
      intro b hb rel' ⟨h0, k, j, hm⟩ hp
      have key : ∀ y ∈ looseElf.relocs, y.2.1 = 2 + 1 → y.2.2.2.r_sym ≠ 0 → ∀ b < 8, ¬ MayPatch y.2.2.2.rela (0 + b) := by
        simp only [MayPatch]
        decide +kernel
      exact key _ hm rfl h0 b hb hp)
  have h4 := C125_zero_partial R loose_clean (pre := []) (post := []) (x := looseFile) rfl (i := 2) (m := b!".data") (n := b!"z")
    (rel := ⟨8, some 0x2000, 2, R_X86_64_64⟩) (s := { demoSym 0 0xfff1 0 0 with st_name := 8 })
    ⟨⟨_, ⟨rfl, by decide, rfl, by decide⟩, by decide⟩, ⟨by decide, 0, 1, by decide⟩,
      (by decide +kernel : (looseElf.usedRelocs.filter fun z => z.2.1 = 3).Pairwise fun y z => Disjoint (siteOf y.2.2.2.rela) (siteOf z.2.2.2.rela)), rfl⟩ rfl (by decide)
    (.inl fun p hp => by cases hp) (pre' := []) rfl loose_zero rfl rfl
  refine ⟨log, w, w', f, s, R, ⟨o, h1, fun b hb => ?_⟩, h4⟩
  have e := h2 b hb
  rw [show placeOf [] looseFile b!".data" 2 = 0 by decide +kernel, Nat.zero_add, Nat.zero_add] at e
  rw [e]
  have key : ∀ b < 8, looseBytes[8 + b]? = some 0 := by decide +kernel
  exact key b hb

/-- `C126`: if `libf.so` calls itself `libf.so.1`, the executable does not ask for that -/
example : ∃ log loaded w w' f s, LinkRun demoEnv demoLinker LinkSched.id loaded log w w' f s ∧
    some b!"libf.so.1" ∉ neededNames (bodyNamed f b!".dynamic") (bodyNamed f b!".dynstr") := by
  obtain ⟨log, loaded, w, w', f, s, h1, h2, h3, hp⟩ := LinkRun.of_links (P := fun _ _ _ _ => true) (fuel := 5) LinkSched.id_valid demo_files demo_links
  refine ⟨log, loaded, w, w', f, s, h3, C126_soname_violated h3 demo_libraries ?_ ?_⟩
  · have : some b!"ld-linux-x86-64.so.2" ≠ some b!"libf.so.1" := by decide
    exact this
  · intro p hp
    have hp : p ∈ [libPath] := hp
    cases List.mem_singleton.1 hp
    have : some b!"libf.so" ≠ some b!"libf.so.1" := by decide
    exact this

/-- `C126_soname_partial`: if it calls itself `libf.so`, the executable asks for that -/
example : ∃ file, Linker.link demoEnv demoLinker LinkSched.id 5 = some (.ok file) ∧ ∃ p s f, LibraryHas demoEnv demoLinker p s b!"f" ∧
    (fun p : Path => if p = libPath then some b!"libf.so" else none) p = some f ∧
    some f ∈ neededNames (bodyNamed file b!".dynamic") (bodyNamed file b!".dynstr") := by
  have hl : links demoEnv demoLinker LinkSched.id 5 (fun _ _ f _ => dynName f 1 == some b!"f") = true := by decide +kernel
  obtain ⟨log, loaded, w, w', f, s, h1, h2, h3, hp⟩ := LinkRun.of_links LinkSched.id_valid demo_files hl
  refine ⟨f, h1, C126_soname_partial LinkSched.id_valid demo_files h2 demo_libraries h1 ?_ (by decide) (eq_of_beq hp)⟩
  intro p hp
  have hp : p ∈ [libPath] := hp
  cases List.mem_singleton.1 hp
  rfl

end Dld
