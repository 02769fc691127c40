import Verif.Lemmas.Fixed
import Verif.Lemmas.DemoFiles
import Verif.Props.Files
/-! # C121, C122: absolute and common symbols -/
namespace Dld
open Writer Spec StringTable SymbolTable

variable {env : Env} {l : Linker} {sched : LinkSched} {loaded pre post pre' post' : List Loaded} {log : List Call} {w w' : Writer} {file : Bytes}
  {secs : List Section} {x x' : Loaded}

/-- a symbol that is not in a section of its file is in the output as it is in the file -/
theorem LinkRun.fixed_symbol (R : LinkRun env l sched loaded log w w' file secs) (hc : CleanFiles env l) (e : loaded = pre ++ x :: post) {j : Nat} {s : Sym}
    {n : Name} (hd : FixedDefinition pre x post j s n) : ∃ y, symbolsNamed file n = [y] ∧ y.value = s.st_value ∧ y.size = s.st_size ∧
      y.info = s.st_info ∧ y.other = s.st_other ∧ y.shndx = s.st_shndx := by
  have h := R.good
  obtain ⟨A, B, sec, r, hl, hno, hearly, hlate⟩ := R.calls.fixed_call hc e hd
  have hops : opsOf log = opsOf A ++ Op.sym s sec n x.path r :: opsOf B := by rw [hl, opsOf_append]; rfl
  obtain ⟨ns, nd, T⟩ := h.run.hist.tableFacts
  obtain ⟨hr, hns, z, hz, hzs⟩ := h.decided_any T hops hd.named hd.symbol.2.2 hd.defined (hd.binds x (by simp) _ _ hd.symbol).1 hearly hlate
  have ho := T.ordinary h.symstr hns hd.ordinary
  obtain ⟨st, hst⟩ := h.run.stages
  rw [hr] at hz
  have h1 := h.toGoodRun.unplaced_symbol st hst ho.toUnbound (fun sr hin => Nat.lt_of_not_le fun hf => by
    obtain ⟨s', hm', ha'⟩ := h.noted_attached T hns hin hf
    exact hno _ _ _ hm' ha')
  rw [special_other (by rw [st.patched_symstr]; exact ho) st.hspecial, SymbolTable.view_get st.patched_sym, hz, Option.map_some] at h1
  obtain ⟨y, hy, hys⟩ := Option.map_eq_some_iff.1 h1
  refine ⟨y.sym.toSpec, h.symbol_named T hns hy, ?_, ?_, ?_, ?_, ?_⟩
  · show y.sym.st_value = _
    rw [hys, hzs]
  · show y.sym.st_size = _
    rw [hys, hzs]
  · show y.sym.st_info = _
    rw [hys, hzs]
  · show y.sym.st_other = _
    rw [hys, hzs]
  · show y.sym.st_shndx = _
    rw [hys, hzs]

/-- **C121, symbols.** The only definition of a name, as an absolute symbol, is in the output with its value, size, type, binding and visibility, and
absolute. -/
theorem C121_symbol (R : LinkRun env l sched loaded log w w' file secs) (hc : CleanFiles env l) (e : loaded = pre ++ x :: post) {j : Nat} {s : Sym}
    {n : Name} (hd : FixedDefinition pre x post j s n) (habs : s.st_shndx = 0xfff1) : ∃ y, symbolsNamed file n = [y] ∧ y.value = s.st_value ∧
      y.size = s.st_size ∧ y.info = s.st_info ∧ y.other = s.st_other ∧ y.shndx = 0xfff1 := by
  rw [← habs]
  exact R.fixed_symbol hc e hd

/-- **C121, references.** A reference to an absolute symbol leads to its value, wherever the sections of the output are. -/
theorem C121_reference (R : LinkRun env l sched loaded log w w' file secs) (hc : CleanFiles env l) (e : loaded = pre ++ x :: post) {i : Nat} {m n : Name}
    {rel : InReloc} {s : Sym} (hr : Reference x i m rel s) (hn : x.elf.symName s.st_name = some n) (h3 : s.st_info % 16 ≠ 3) (ho : OwnName env l n)
    (e' : loaded = pre' ++ x' :: post') {j : Nat} {d : Sym} (hd : FixedDefinition pre' x' post' j d n) (habs : d.st_shndx = 0xfff1) :
    ∃ o, sectionsNamed file m = [o] ∧ Reaches file o (placeOf pre x m i + rel.r_offset) rel.rela d.st_value := by
  obtain ⟨y, j', s', sec, n', hra, hm, hj', hn', es⟩ := R.calls.refersAt hc R.good.run.hist e hr
  obtain ⟨sh0, S0, _⟩ := hr.home
  obtain ⟨o, v, h1, h2, h4⟩ := C88_direct R.good hra S0.named (R.calls.refers hm hn' es hn h3) (R.calls.not_imported ho)
  obtain ⟨v', h6, h7, _⟩ := C121_symbol R hc e' hd habs
  rw [h2] at h6
  cases h6
  rw [h7] at h4
  exact ⟨o, h1, h4⟩

/-! ## C122 -/

/-- allocated sections are not below the base address -/
theorem GoodRun.addr_base {opts : Options} {ops : List Op} {sched : Sched} (G : GoodRun opts ops sched w w' file secs) {o : EShdr} (ho : o ∈ shdrs file)
    (ha : o.allocated = true) : 0x200000 ≤ o.addr := by
  obtain ⟨i, hi⟩ := List.getElem?_of_mem ho
  obtain ⟨s, hs, rfl⟩ := G.header_at hi
  obtain ⟨hdr, st, hl⟩ := G.run.laid G.good.flags
  obtain ⟨k, t, rfl, ht, hfs, hta⟩ := G.run.source_drop G.good.flags hs ha
  have h1 := (hl.inv.secs t (List.mem_of_getElem? ht)).2.2 hta
  show 0x200000 ≤ s.sh.sh_addr
  rw [hfs.addr]
  omega

/-- **C122 is violated** by every link with a common symbol: the symbol gets no storage. It is in the output with the alignment the file asks for as its
value, and references to it lead to that address, which is in no section. -/
theorem C122_common_violated (R : LinkRun env l sched loaded log w w' file secs) (hc : CleanFiles env l) (e' : loaded = pre' ++ x' :: post') {j : Nat}
    {d : Sym} {n : Name} (hd : FixedDefinition pre' x' post' j d n) (hcom : d.st_shndx = 0xfff2) (hal : d.st_value < 0x200000) :
    ¬ HasStorage file n d.st_size d.st_value ∧ (∃ y, symbolsNamed file n = [y] ∧ y.value = d.st_value ∧ y.shndx = 0xfff2) ∧
    ∀ {i : Nat} {m : Name} {rel : InReloc} {s : Sym}, loaded = pre ++ x :: post → Reference x i m rel s → x.elf.symName s.st_name = some n →
      s.st_info % 16 ≠ 3 → OwnName env l n →
      ∃ o, sectionsNamed file m = [o] ∧ Reaches file o (placeOf pre x m i + rel.r_offset) rel.rela d.st_value := by
  obtain ⟨y, h1, h2, _, _, _, h3⟩ := R.fixed_symbol hc e' hd
  refine ⟨?_, ⟨y, h1, h2, h3.trans hcom⟩, ?_⟩
  · rintro ⟨y', o, g1, g2, g3, g4, _⟩
    rw [h1] at g1
    cases g1
    have := R.good.toGoodRun.addr_base g2 g3
    omega
  · intro i m rel s e hr hn h3 ho
    obtain ⟨r, j', s', sec, n', hra, hm, hj', hn', es⟩ := R.calls.refersAt hc R.good.run.hist e hr
    obtain ⟨sh0, S0, _⟩ := hr.home
    obtain ⟨o, v, k1, k2, k4⟩ := C88_direct R.good hra S0.named (R.calls.refers hm hn' es hn h3) (R.calls.not_imported ho)
    rw [h1] at k2
    cases k2
    rw [h2] at k4
    exact ⟨o, k1, k4⟩

/-- **C122, what holds**: the symbol is in the output with its size, type, binding and visibility. What is missing: storage (`C122_common_violated`). -/
theorem C122_common_partial (R : LinkRun env l sched loaded log w w' file secs) (hc : CleanFiles env l) (e : loaded = pre ++ x :: post) {j : Nat} {s : Sym}
    {n : Name} (hd : FixedDefinition pre x post j s n) : ∃ y, symbolsNamed file n = [y] ∧ y.size = s.st_size ∧ y.info = s.st_info ∧ y.other = s.st_other := by
  obtain ⟨y, h1, _, h2, h3, h4, _⟩ := R.fixed_symbol hc e hd
  exact ⟨y, h1, h2, h3, h4⟩

/-! ## C123 -/

/-- the executable has relocations of three types -/
theorem GoodLink.dyn_types {opts : Options} {ops : List Op} {sched : Sched} (h : GoodLink opts ops sched w w' file secs) {r : ERela} (hr : r ∈ dynRelocs file) :
    r.type = 5 ∨ r.type = 6 ∨ r.type = 7 := by
  rcases List.mem_append.1 hr with hr | hr
  · obtain ⟨st, hst⟩ := h.run.stages
    rcases (h.relaDyn st hst).2.2 r hr with h | h
    · exact .inr (.inl h)
    · exact .inl h
  · obtain ⟨j, hj⟩ := List.getElem?_of_mem hr
    obtain ⟨i, k, n, hp, _⟩ := h.plt_rel hj
    have := hp.rel
    rw [hj] at this
    cases this
    exact .inr (.inr rfl)

/-- **C123 is violated** by every link with an indirect function: the executable has no `IRELATIVE` relocation (37), so nobody calls the resolver, and a
reference to the function, a call for instance, leads to the resolver instead of the function that it would choose. -/
theorem C123_indirect_violated (R : LinkRun env l sched loaded log w w' file secs) (hc : CleanFiles env l) (e : loaded = pre ++ x :: post) {i : Nat} {m n : Name}
    {rel : InReloc} {s : Sym} (hr : Reference x i m rel s) (hn : x.elf.symName s.st_name = some n) (h3 : s.st_info % 16 ≠ 3) (ho : OwnName env l n)
    (e' : loaded = pre' ++ x' :: post') {j : Nat} {d : Sym} {m' : Name} {sh : SectionHeader} (hd : Definition pre' x' post' j d n)
    (S : SectionOf x' d.st_shndx sh m') (hz : sh.sh_type ≠ 8) (_ : d.st_info % 16 = 10) :
    (∀ r ∈ dynRelocs file, r.type ≠ 37) ∧ ∃ o o', sectionsNamed file m = [o] ∧ sectionsNamed file m' = [o'] ∧
      Reaches file o (placeOf pre x m i + rel.r_offset) rel.rela (o'.addr + placeOf pre' x' m' d.st_shndx + d.st_value) :=
  ⟨fun r hr => by rcases R.good.dyn_types hr with h | h | h <;> omega, C112_reference R hc e hr hn h3 ho e' hd S (.inl hz)⟩

/-- **C123, what holds**: a call of an indirect function of a library leads to an entry of `.plt` that the loader binds with a `JUMP_SLOT` relocation for
the function's name, and it is the loader that knows that the function is indirect. What is missing: indirect functions of the program itself
(`C123_indirect_violated`). -/
theorem C123_library_partial (R : LinkRun env l sched loaded log w w' file secs) (hc : CleanFiles env l) (e : loaded = pre ++ x :: post) {i : Nat} {m n : Name}
    {rel : InReloc} {s : Sym} (hr : Reference x i m rel s) (hn : x.elf.symName s.st_name = some n) (h3 : s.st_info % 16 ≠ 3) (hl : LibraryName loaded n)
    (h4 : relType rel.rela = 4) :
    ∃ o i' j k, sectionsNamed file m = [o] ∧ PltSlot file i' j k n ∧ (⟨addrNamed file b!".got.plt" + 8 * (i' + 3), k, 7, 0⟩ : ERela) ∈ dynRelocs file ∧
      fieldOf file o (placeOf pre x m i + rel.r_offset) 4 =
        (addrNamed file b!".plt" + 16 * (i' + 1) : Nat) + rel.rela.r_addend - (o.addr + (placeOf pre x m i + rel.r_offset) : Nat) := by
  obtain ⟨o, i', j, k, h1, h2, h5⟩ := C113_call R hc e hr hn h3 hl h4
  exact ⟨o, i', j, k, h1, h2, List.mem_append_right _ (List.mem_of_getElem? h2.rel), h5⟩

/-! ## C124 -/

/-- **C124 is violated** by every link with a weak reference that nothing satisfies: the link fails. -/
theorem C124_weak_violated (hv : sched.Valid) (hc : CleanFiles env l) {fuel : Nat} (hf : Linker.TablesFit env l sched fuel) {n : Name} (hn : OpenWeak env l n)
    (file : Bytes) : Linker.link env l sched fuel ≠ some (.ok file) := by
  intro h
  obtain ⟨log, loaded, w, w', secs, hg, h1, hr, hund⟩ := Linker.link_ok hv h
  obtain ⟨f1, f2, f3⟩ := hf w w' hg hr.compute
  have h2 := hr.hist
  have h4 := Linker.calls_spec hv h1 h2 f2
  obtain ⟨st, hst⟩ := computeSections_stages hr.compute
  obtain ⟨ns, nd, T⟩ := h2.tableFacts
  have hall : ∀ s sec, Mention (opsOf log) s sec n → s.st_shndx = 0 ∧ s.st_info / 16 = 2 := by
    intro s sec hm
    obtain ⟨x, hx, hs, h1, h2⟩ := h4.mention_iff.2 ⟨sec, hm⟩
    exact hn.weak _ (h4.input hx) s hs h1 h2
  obtain ⟨x, hx, s, hs, k1, k2⟩ := hn.used
  obtain ⟨members, hm, _⟩ := h4.objects
  obtain ⟨sec, hm⟩ := h4.mention_iff.1 ⟨x, by rw [hm]; exact List.mem_append_left _ hx, hs, k1, k2⟩
  obtain ⟨hns, y, hy, hu⟩ := h2.wanted f2 T hm (.inr (hall s sec hm).2) (fun s sec hm => (hall s sec hm).1)
    (fun s sec hm => by have := (hall s sec hm).2; omega) (by
      intro e path r hop
      obtain ⟨⟨hp, data, e', hd, he, hs, hn'⟩, _⟩ := h4.dynsym hop
      exact hn.missing path hp data e' hd he e hs hn')
  obtain ⟨s', hs', hu'⟩ := st.keeps_undefined hv.toSched h2 (h4.good hc) f1 (T.ordinary f2 hns hn.ordinary) (fun sr hin => by
    refine Nat.lt_of_not_le fun hle => ?_
    obtain ⟨s', n', path', hop', habs⟩ := mem_notesAt.1 hin
    have h3 : s'.st_info % 16 ≠ 3 := by
      intro e
      obtain ⟨k, i, e⟩ := h2.section_ref hop' e
      cases e
    have hr := (T.inv.sref _ _ _ _ _ hop').2 h3
    have hnn : n' = n := (u32_nameOff_inj T.symstr f2 hns ((T.symNames n').2 (.inr (mem_symNames hop'))) (SymbolRef.named.inj hr)).symm
    subst hnn
    have hmm : Mention (opsOf log) s' (some sr) n' := ⟨⟨_, _, hop'⟩, h3⟩
    exact h4.undefined_unattached hc hmm (hall _ _ hmm).1 sr ⟨rfl, habs, fun sh d hp => by
      rw [h2.null_push hp] at hle
      exact absurd hle (by decide)⟩) hy hu
  rw [hst] at hs'
  have := (Linker.mem_undefinedSymbols hv.toSched.symIter).2 ⟨_, s', rfl, hs', hu'⟩
  rw [hund] at this
  cases this

/-- **C124, what holds**: in the executable of a link that succeeds, a weak symbol that is still undefined is in a library. What is missing: weak
references that nothing satisfies (`C124_weak_violated`). -/
theorem C124_weak_partial (hv : sched.Valid) (hc : CleanFiles env l) {fuel : Nat} (hf : Linker.Fits env l sched fuel)
    (h : Linker.link env l sched fuel = some (.ok file)) {y : ESym} (hy : y ∈ symsOf (bodyNamed file b!".symtab")) (h0 : y.shndx = 0) (hb : y.info / 16 = 2) :
    ∃ n p s, cstrAt (bodyNamed file b!".strtab") y.name = some n ∧ LibraryHas env l p s n := Linker.C59_resolved hv hc hf h hy h0 (.inr hb)

/-! ## Concrete cases -/

/-- a file with an absolute symbol `k` of value 0x1234, a common symbol `c` of 64 bytes that asks for alignment 8, and an indirect function `i` 4 bytes
into its code -/
def oddElf : ElfFile where
  isObjectFile := true
  sectionHeaders := [{}, { demoSh SHT_PROGBITS 6 12 4 with sh_name := 1 }]
  secName := AMap.get? [(0, []), (1, b!".text")]
  syms := [{}, { demoSym 0 0xfff1 0x1234 0 with st_name := 1 }, { demoSym STT_OBJECT 0xfff2 8 64 with st_name := 3 }, { demoSym 10 1 4 8 with st_name := 5 }]
  symName := AMap.get? [(0, []), (1, b!"k"), (3, b!"c"), (5, b!"i")]
  shdrRelocs := []
  dynsyms := []
  dynName := fun _ => none

/-- a program that calls `i` and has the addresses of `k` and `c` in its data -/
def oddMainElf : ElfFile where
  isObjectFile := true
  sectionHeaders :=
    [{}, { demoSh SHT_PROGBITS 6 8 4 with sh_name := 1 }, { demoSh SHT_RELA 0 24 8 with sh_name := 7, sh_info := 1 },
      { demoSh SHT_PROGBITS 3 16 8 with sh_name := 18, sh_offset := 8 }, { demoSh SHT_RELA 0 48 8 with sh_name := 24, sh_info := 3 }]
  secName := AMap.get? [(0, []), (1, b!".text"), (7, b!".rela.text"), (18, b!".data"), (24, b!".rela.data")]
  syms := [{}, { demoSym STT_FUNC 1 0 8 with st_name := 1 }, { demoSym 0 0 0 0 with st_name := 8 }, { demoSym 0 0 0 0 with st_name := 10 },
    { demoSym 0 0 0 0 with st_name := 12 }]
  symName := AMap.get? [(0, []), (1, b!"_start"), (8, b!"k"), (10, b!"c"), (12, b!"i")]
  shdrRelocs := [(2, [⟨1, some (-4), 4, R_X86_64_PLT32⟩]), (4, [⟨0, some 0, 2, R_X86_64_64⟩, ⟨8, some 0, 3, R_X86_64_64⟩])]
  dynsyms := []
  dynName := fun _ => none

def oddBytes : Bytes := List.replicate 12 0xc3
def oddMainBytes : Bytes := [0xe8, 0, 0, 0, 0, 0xc3, 0, 0] ++ List.replicate 16 0

def oddEnv : Env := tableEnv [(Linker.calleePath, oddBytes), (mainPath, oddMainBytes)] [(oddBytes, oddElf), (oddMainBytes, oddMainElf)] []

def oddLinker : Linker := { options := Options.default, objects := [Linker.calleePath, mainPath], archives := [] }

theorem odd_clean : CleanFiles oddEnv oddLinker := CleanFiles.of_table (by decide +kernel)

def oddFile : Loaded := ⟨.object 0, Linker.calleePath, oddBytes, oddElf⟩
def oddMainFile : Loaded := ⟨.object 1, mainPath, oddMainBytes, oddMainElf⟩

theorem odd_run : ∃ log w w' f s, Linker.link oddEnv oddLinker LinkSched.id 5 = some (.ok f) ∧
    LinkRun oddEnv oddLinker LinkSched.id [oddFile, oddMainFile] log w w' f s := by
  obtain ⟨log, loaded, w, w', f, s, h1, h2, h3, hp⟩ := LinkRun.of_links (P := fun _ _ _ _ => true) (fuel := 5) LinkSched.id_valid odd_clean (by decide +kernel)
  have e := Linker.loaded_objects h3.calls rfl
  subst e
  exact ⟨log, w, w', f, s, h1, h3⟩

theorem odd_absolute : FixedDefinition [] oddFile [oddMainFile] 1 { demoSym 0 0xfff1 0x1234 0 with st_name := 1 } b!"k" :=
  .of_check (by decide +kernel) (by decide) (by decide) ⟨rfl, rfl, by decide⟩ (by decide) (.inl rfl)

theorem odd_common : FixedDefinition [] oddFile [oddMainFile] 2 { demoSym STT_OBJECT 0xfff2 8 64 with st_name := 3 } b!"c" :=
  .of_check (by decide +kernel) (by decide) (by decide) ⟨rfl, rfl, by decide⟩ (by decide) (.inr (by decide))

theorem odd_indirect : Definition [] oddFile [oddMainFile] 3 { demoSym 10 1 4 8 with st_name := 5 } b!"i" :=
  .of_check (by decide +kernel) (by decide) (by decide) ⟨rfl, rfl, by decide⟩ (by decide) (by decide)

theorem odd_reference (i : Nat) (m : Name) (rel : InReloc) (s : Sym) (h : ∃ sh, SectionOf oddMainFile i sh m ∧ sh.sh_type ≠ 8) (hr : oddMainElf.RelocOf i rel)
    (hs : oddMainElf.syms[rel.r_sym]? = some s) : Reference oddMainFile i m rel s := by
  refine ⟨h, hr, ?_, hs⟩
  obtain ⟨_, k, j, hm⟩ := hr
  have key : ∀ y ∈ oddMainElf.relocs, (oddMainElf.usedRelocs.filter fun z => z.2.1 = y.2.1).Pairwise
      fun y z => Disjoint (siteOf y.2.2.2.rela) (siteOf z.2.2.2.rela) := by decide +kernel
  exact key _ hm

theorem odd_own {n : Name} : OwnName oddEnv oddLinker n := .inl fun p hp => by cases hp

/-- `C121`: the address of `k` in the data is 0x1234 -/
example : ∃ log w w' f s, LinkRun oddEnv oddLinker LinkSched.id [oddFile, oddMainFile] log w w' f s ∧
    (∃ y, symbolsNamed f b!"k" = [y] ∧ y.value = 0x1234 ∧ y.shndx = 0xfff1) ∧
    ∃ o, sectionsNamed f b!".data" = [o] ∧ Reaches f o 0 ⟨0, 2 ^ 32 * 2 + 1, 0⟩ 0x1234 := by
  obtain ⟨log, w, w', f, s, _, R⟩ := odd_run
  obtain ⟨y, h1, h2, _, _, _, h3⟩ := C121_symbol R odd_clean (pre := []) rfl odd_absolute rfl
  have h4 := C121_reference R odd_clean (pre := [oddFile]) (post := []) rfl (odd_reference 3 b!".data" ⟨0, some 0, 2, R_X86_64_64⟩ _
    ⟨_, ⟨rfl, by decide, rfl, by decide⟩, by decide⟩ ⟨by decide, 1, 0, by decide⟩ rfl) (n := b!"k") rfl (by decide) odd_own (pre' := []) rfl odd_absolute rfl
  exact ⟨log, w, w', f, s, R, ⟨y, h1, h2, h3⟩, h4⟩

/-- `C122`: the address of `c` in the data is 8 -/
example : ∃ log w w' f s, LinkRun oddEnv oddLinker LinkSched.id [oddFile, oddMainFile] log w w' f s ∧ ¬ HasStorage f b!"c" 64 8 ∧
    ∃ o, sectionsNamed f b!".data" = [o] ∧ Reaches f o 8 ⟨8, 2 ^ 32 * 3 + 1, 0⟩ 8 := by
  obtain ⟨log, w, w', f, s, _, R⟩ := odd_run
  obtain ⟨h1, _, h2⟩ := C122_common_violated (pre := [oddFile]) (x := oddMainFile) (post := []) R odd_clean (pre' := []) rfl odd_common rfl (by decide)
  exact ⟨log, w, w', f, s, R, h1, h2 rfl (odd_reference 3 b!".data" ⟨8, some 0, 3, R_X86_64_64⟩ _
    ⟨_, ⟨rfl, by decide, rfl, by decide⟩, by decide⟩ ⟨by decide, 1, 1, by decide⟩ rfl) rfl (by decide) odd_own⟩

/-- `C122_common_partial` -/
example : ∃ log w w' f s y, LinkRun oddEnv oddLinker LinkSched.id [oddFile, oddMainFile] log w w' f s ∧ symbolsNamed f b!"c" = [y] ∧ y.size = 64 := by
  obtain ⟨log, w, w', f, s, _, R⟩ := odd_run
  obtain ⟨y, h1, h2, _⟩ := C122_common_partial R odd_clean (pre := []) rfl odd_common
  exact ⟨log, w, w', f, s, y, R, h1, h2⟩

/-- `C123`: the call of `i` leads to the resolver -/
example : ∃ log w w' f s o, LinkRun oddEnv oddLinker LinkSched.id [oddFile, oddMainFile] log w w' f s ∧ (∀ r ∈ dynRelocs f, r.type ≠ 37) ∧
    sectionsNamed f b!".text" = [o] ∧ Reaches f o (12 + 1) ⟨1, 2 ^ 32 * 4 + 4, -4⟩ (o.addr + 0 + 4) := by
  obtain ⟨log, w, w', f, s, _, R⟩ := odd_run
  obtain ⟨h1, o, o', h2, h3, h4⟩ := C123_indirect_violated R odd_clean (pre := [oddFile]) (post := []) rfl (odd_reference 1 b!".text" ⟨1, some (-4), 4, R_X86_64_PLT32⟩ _
    ⟨_, ⟨rfl, by decide, rfl, by decide⟩, by decide⟩ ⟨by decide, 0, 0, by decide⟩ rfl) (n := b!"i") rfl (by decide) odd_own (pre' := []) rfl odd_indirect
    (m' := b!".text") ⟨rfl, by decide, rfl, by decide⟩ (by decide) rfl
  rw [h2] at h3
  cases h3
  exact ⟨log, w, w', f, s, o, R, h1, h2, h4⟩

/-- `C123_library_partial`: the call of `f` in the demonstration with a library -/
example : ∃ log w w' f s o g, World log w w' f s o g ∧ ∃ i j k, PltSlot f i j k b!"f" ∧ (⟨addrNamed f b!".got.plt" + 8 * (i + 3), k, 7, 0⟩ : ERela) ∈ dynRelocs f := by
  obtain ⟨log, w, w', f, s, o, g, _, W⟩ := world_run
  obtain ⟨o1, i, j, k, _, a2, a3, _⟩ := C123_library_partial W.run world_clean (pre := [partFile]) (post := []) rfl
    (world_references ⟨1, some (-4), 2, R_X86_64_PLT32⟩ _ ⟨by decide, 0, 0, by decide⟩ rfl) (n := b!"f") rfl (by decide) world_library (by decide)
  exact ⟨log, w, w', f, s, o, g, W, i, j, k, a2, a3⟩

/-- a program that would call `f` if there were one -/
def maybeElf : ElfFile where
  isObjectFile := true
  sectionHeaders := [{}, { demoSh SHT_PROGBITS 6 8 4 with sh_name := 1 }]
  secName := AMap.get? [(0, []), (1, b!".text")]
  syms := [{}, { demoSym STT_FUNC 1 0 8 with st_name := 1 }, { st_name := 8, st_info := 0x20 }]
  symName := AMap.get? [(0, []), (1, b!"_start"), (8, b!"f")]
  shdrRelocs := []
  dynsyms := []
  dynName := fun _ => none

def maybeEnv : Env := tableEnv [(mainPath, b!"maybe it is"), (libPath, b!"library")] [(b!"maybe it is", maybeElf), (b!"library", libElf)] []

def maybeLinker : Linker := { options := Options.default, objects := [mainPath], archives := [] }

theorem maybe_fits : Linker.TablesFit maybeEnv maybeLinker LinkSched.id 5 := by
  have h : (match Linker.gathered maybeEnv maybeLinker LinkSched.id 5 with
      | some (.ok w) => match w.computeSections Sched.id with
        | .ok w' => decide (w.shstr.totalLen < 2 ^ 32) && decide (w.symstr.totalLen < 2 ^ 32) && decide (w'.sections.length ≤ 65536)
        | .error _ => false
      | _ => false) = true := by decide +kernel
  intro w w' hg hc
  rw [hg] at h
  simp only [] at h
  have hc : w.computeSections Sched.id = .ok w' := hc
  rw [hc] at h
  simp only [Bool.and_eq_true, decide_eq_true_eq] at h
  exact ⟨h.1.1, h.1.2, h.2⟩

theorem maybe_open : OpenWeak maybeEnv maybeLinker b!"f" := by
  refine ⟨by decide, by decide, ⟨⟨.object 0, mainPath, b!"maybe it is", maybeElf⟩, .head _, _, List.mem_of_getElem? (i := 2) rfl, rfl, by decide⟩, ?_, fun p hp => by cases hp⟩
  intro e he s hs hn h3
  have he := he.of_table
  simp only [List.map_cons, List.map_nil, List.mem_cons, List.not_mem_nil, or_false] at he
  have key : ∀ e ∈ [maybeElf, libElf], ∀ s ∈ e.syms, e.symName s.st_name = some b!"f" → s.st_shndx = 0 ∧ s.st_info / 16 = 2 := by decide +kernel
  exact key e (by simpa using he) s hs hn

/-- `C124`: the link fails because of `f` -/
example : (∀ file, Linker.link maybeEnv maybeLinker LinkSched.id 5 ≠ some (.ok file)) ∧
    Linker.link maybeEnv maybeLinker LinkSched.id 5 = some (.error (.err maybeLinker.options.output (.undefined [b!"f"]))) :=
  ⟨C124_weak_violated LinkSched.id_valid (CleanFiles.of_table (by decide +kernel)) maybe_fits maybe_open, by decide +kernel⟩

/-- `C124_weak_partial`: with the library, `f` is found there -/
example : ∃ file y, Linker.link maybeEnv { maybeLinker with options := { Options.default with sharedLibs := [(libPath, false)] } } LinkSched.id 5 = some (.ok file) ∧
    y ∈ symsOf (bodyNamed file b!".symtab") ∧ ∃ n p s, cstrAt (bodyNamed file b!".strtab") y.name = some n ∧
      LibraryHas maybeEnv { maybeLinker with options := { Options.default with sharedLibs := [(libPath, false)] } } p s n := by
  have hl : links maybeEnv { maybeLinker with options := { Options.default with sharedLibs := [(libPath, false)] } } LinkSched.id 5
      (fun w w' _ _ => (symsNamed Sched.id w w' b!"f").any fun y => y.shndx == 0 && y.info / 16 == 2) = true := by decide +kernel
  have hc : CleanFiles maybeEnv { maybeLinker with options := { Options.default with sharedLibs := [(libPath, false)] } } := CleanFiles.of_table (by decide +kernel)
  obtain ⟨log, loaded, w, w', f, s, h1, h2, h3, hp⟩ := LinkRun.of_links LinkSched.id_valid hc hl
  have e := h3.good.symsNamed_eq b!"f"
  rw [show LinkSched.id.toSched = Sched.id from rfl] at e
  rw [e, List.any_eq_true] at hp
  obtain ⟨y, hy, hp⟩ := hp
  simp only [Bool.and_eq_true, beq_iff_eq] at hp
  have hy := (List.mem_filter.1 hy).1
  exact ⟨f, y, h1, hy, C124_weak_partial LinkSched.id_valid hc h2 h1 hy hp.1 hp.2⟩

end Dld
