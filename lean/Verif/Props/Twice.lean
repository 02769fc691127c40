import Verif.Spec.Twice
import Verif.Lemmas.Twice
import Verif.Props.Fixed
/-! # C131: names that several files define -/
namespace Dld
open Writer Spec StringTable SymbolTable

variable {env : Env} {l : Linker} {sched : LinkSched} {loaded pre post pre' post' pre'' post'' : List Loaded} {log : List Call} {w w' : Writer} {file : Bytes}
  {secs : List Section} {x x' x'' : Loaded}

/-- the calls for a symbol in a section -/
theorem Calls.defined_call {N : List Call → Name → Prop} (h : Calls env l N loaded log) (hx : x ∈ loaded) {j : Nat} {s : Sym} {n m : Name} {sh : SectionHeader}
    (D : DefinedIn x j s n sh m) : ∃ sr y d, (⟨x.source, .symbol j, .sym s (some sr) n x.path y⟩ : Call) ∈ log ∧
      (⟨x.source, .section s.st_shndx, .push m sh (some d) sr⟩ : Call) ∈ log := by
  obtain ⟨A, B, n', sec, y, hl, hn', hsec, hb⟩ := h.symbol_after hx D.symbol.1
  rw [D.symbol.2.1] at hn'
  cases hn'
  obtain ⟨sr, hsr⟩ := hb s.st_shndx (Calls.mem_copied.2 ⟨sh, D.home.header, D.home.copied⟩)
  have hs1 := (hsec sr).2 hsr
  subst hs1
  obtain ⟨m', sh', d, hp⟩ := hsr
  have hpl : (⟨x.source, .section s.st_shndx, .push m' sh' d sr⟩ : Call) ∈ log := by rw [hl]; exact List.mem_append_left _ hp
  obtain ⟨hh1, hh2, hh3, hh4⟩ := h.push_call hx hpl
  rw [D.home.header] at hh1
  cases hh1
  rw [D.home.name] at hh3
  cases hh3
  unfold SectionBytes at hh4
  rw [if_neg D.data] at hh4
  refine ⟨sr, y, _, by rw [hl]; exact List.mem_append_right _ (.head _), by rw [← hh4.2]; exact hpl⟩

/-- **C131 is violated by every link** in which a name is defined in two input sections, by local, weak or other symbols: the one symbol of the output with that
name has the addresses of both input sections added to its value. If the values in the files are below 0x200000 and the sections are loaded, it lies
behind both definitions. -/
theorem C131_symbol_violated (R : LinkRun env l sched loaded log w w' file secs) (e : loaded = pre ++ x :: post) {j j' : Nat} {s s' : Sym}
    {n m m' : Name} {sh sh' : SectionHeader} (D : DefinedIn x j s n sh m) (e' : loaded = pre' ++ x' :: post') (D' : DefinedIn x' j' s' n sh' m')
    (hne : x ≠ x' ∨ s.st_shndx ≠ s'.st_shndx) (hn : n ≠ []) (hl : n ∉ linkerSymbols) :
    ∃ o o' y, sectionsNamed file m = [o] ∧ sectionsNamed file m' = [o'] ∧ symbolsNamed file n = [y] ∧
      (o.addr + placeOf pre x m s.st_shndx) + (o'.addr + placeOf pre' x' m' s'.st_shndx) ≤ y.value ∧
      (o.allocated = true → o'.allocated = true → s.st_value < 0x200000 → s'.st_value < 0x200000 →
        o.addr + placeOf pre x m s.st_shndx + s.st_value < y.value ∧ o'.addr + placeOf pre' x' m' s'.st_shndx + s'.st_value < y.value) := by
  have h := R.good
  have hx : x ∈ loaded := by rw [e]; simp
  have hx' : x' ∈ loaded := by rw [e']; simp
  obtain ⟨sr, r, d, hs, hp⟩ := R.calls.defined_call hx D
  obtain ⟨sr', r', d', hs', hp'⟩ := R.calls.defined_call hx' D'
  have hsr : sr ≠ sr' := by
    rintro rfl
    have hcc := h.run.hist.push_call_inj hp hp' rfl rfl
    simp only [Call.mk.injEq, Item.section.injEq] at hcc
    rcases hne with hne | hne
    · exact hne (R.calls.unique hx hx' hcc.1)
    · exact hne hcc.2.1
  obtain ⟨a, b, ea⟩ := List.append_of_mem hp
  obtain ⟨a', b', ea'⟩ := List.append_of_mem hp'
  have hops : opsOf log = opsOf a ++ Op.push m sh (some d) sr :: opsOf b := by rw [ea, opsOf_append]; rfl
  have hops' : opsOf log = opsOf a' ++ Op.push m' sh' (some d') sr' :: opsOf b' := by rw [ea', opsOf_append]; rfl
  obtain ⟨ns, nd, T⟩ := h.run.hist.tableFacts
  have hop := List.mem_map_of_mem (f := Call.op) hs
  have hop' := List.mem_map_of_mem (f := Call.op) hs'
  have hr := (T.inv.sref _ _ _ _ _ hop).2 D.symbol.2.2
  have hr' := (T.inv.sref _ _ _ _ _ hop').2 D'.symbol.2.2
  rw [hr] at hop
  rw [hr'] at hop'
  obtain ⟨hns, z, _, _, hz, _⟩ := h.merged T hn ⟨⟨_, _, hop⟩, D.symbol.2.2⟩
  have ho := T.ordinary h.symstr hns hl
  obtain ⟨o, o', h1, h2, h3⟩ := h.toGoodRun.placed_twice ho hops D.home.named (mem_notesAt.2 ⟨s, n, x.path, hop, D.absolute⟩) hops' D'.home.named
    (mem_notesAt.2 ⟨s', n, x'.path, hop', D'.absolute⟩) hsr
  obtain ⟨y, hy, h3⟩ := h3 _ hz
  rw [offsetOf_startOf h.good.clean hops D.home.named (.inl rfl), offsetOf_startOf h.good.clean hops' D'.home.named (.inl rfl), R.calls.offset_eq e ea,
    R.calls.offset_eq e' ea'] at h3
  refine ⟨o, o', y.sym.toSpec, h1, h2, h.symbol_named T hns hy, Nat.le_trans (Nat.le_add_right _ _) h3, fun g1 g2 g3 g4 => ?_⟩
  have hmem : ∀ {m o}, sectionsNamed file m = [o] → o ∈ shdrs file := fun {m o} hm => by
    have : o ∈ sectionsNamed file m := by rw [hm]; exact .head _
    exact (List.mem_filter.1 this).1
  have b1 := h.toGoodRun.addr_base (hmem h1) g1
  have b2 := h.toGoodRun.addr_base (hmem h2) g2
  have e3 : y.sym.toSpec.value = y.sym.st_value := rfl
  omega

/-- **C131, references.** A reference to a name that is defined in two input sections leads behind both definitions. -/
theorem C131_reference_violated (R : LinkRun env l sched loaded log w w' file secs) (hc : CleanFiles env l) (e : loaded = pre ++ x :: post) {j j' : Nat} {s s' : Sym}
    {n m m' : Name} {sh sh' : SectionHeader} (D : DefinedIn x j s n sh m) (e' : loaded = pre' ++ x' :: post') (D' : DefinedIn x' j' s' n sh' m')
    (hne : x ≠ x' ∨ s.st_shndx ≠ s'.st_shndx) (hn : n ≠ []) (hl : n ∉ linkerSymbols) (e2 : loaded = pre'' ++ x'' :: post'') {i : Nat} {m2 : Name} {rel : InReloc} {t : Sym}
    (hr : Reference x'' i m2 rel t) (hn2 : x''.elf.symName t.st_name = some n) (h3 : t.st_info % 16 ≠ 3) (ho : OwnName env l n) :
    ∃ o o' o2 v, sectionsNamed file m = [o] ∧ sectionsNamed file m' = [o'] ∧ sectionsNamed file m2 = [o2] ∧
      Reaches file o2 (placeOf pre'' x'' m2 i + rel.r_offset) rel.rela v ∧
      (o.allocated = true → o'.allocated = true → s.st_value < 0x200000 → s'.st_value < 0x200000 →
        o.addr + placeOf pre x m s.st_shndx + s.st_value < v ∧ o'.addr + placeOf pre' x' m' s'.st_shndx + s'.st_value < v) := by
  obtain ⟨o, o', y, h1, h2, h4, _, h5⟩ := C131_symbol_violated R e D e' D' hne hn hl
  obtain ⟨r, j', s', sec, n', hra, hm, hj', hn', es⟩ := R.calls.refersAt hc R.good.run.hist e2 hr
  obtain ⟨sh0, S0, _⟩ := hr.home
  obtain ⟨o2, v, k1, k2, k4⟩ := C88_direct R.good hra S0.named (R.calls.refers hm hn' es hn2 h3) (R.calls.not_imported ho)
  rw [h4] at k2
  cases k2
  exact ⟨o, o', o2, _, h1, h2, k1, k4, h5⟩

/-- **C131, what holds**: two references to the name, in one file or in different ones, lead to the same place, that of the one symbol of the name in the output.
What is missing: it is not one of the definitions (`C131_symbol_violated`, `C131_reference_violated`). -/
theorem C131_same_partial (R : LinkRun env l sched loaded log w w' file secs) (hc : CleanFiles env l) (e : loaded = pre ++ x :: post) {i i' : Nat} {m m' n : Name}
    {rel rel' : InReloc} {t t' : Sym} (hr : Reference x i m rel t) (hn : x.elf.symName t.st_name = some n) (h3 : t.st_info % 16 ≠ 3)
    (e' : loaded = pre' ++ x' :: post') (hr' : Reference x' i' m' rel' t') (hn' : x'.elf.symName t'.st_name = some n) (h3' : t'.st_info % 16 ≠ 3)
    (ho : OwnName env l n) : ∃ o o' y, sectionsNamed file m = [o] ∧ sectionsNamed file m' = [o'] ∧ symbolsNamed file n = [y] ∧
      Reaches file o (placeOf pre x m i + rel.r_offset) rel.rela y.value ∧ Reaches file o' (placeOf pre' x' m' i' + rel'.r_offset) rel'.rela y.value := by
  obtain ⟨_, _, _, _, _, hra, hm, _, k1, es⟩ := R.calls.refersAt hc R.good.run.hist e hr
  obtain ⟨_, S, _⟩ := hr.home
  obtain ⟨o, y, g1, g2, g3⟩ := C88_direct R.good hra S.named (R.calls.refers hm k1 es hn h3) (R.calls.not_imported ho)
  obtain ⟨_, _, _, _, _, hra', hm', _, k1', es'⟩ := R.calls.refersAt hc R.good.run.hist e' hr'
  obtain ⟨_, S', _⟩ := hr'.home
  obtain ⟨o', y', g1', g2', g3'⟩ := C88_direct R.good hra' S'.named (R.calls.refers hm' k1' es' hn' h3') (R.calls.not_imported ho)
  rw [g2] at g2'
  cases g2'
  exact ⟨o, o', _, g1, g1', g2, g3, g3'⟩

/-! ## Concrete case -/

/-- a local symbol -/
def staticSym (type shndx value size : Nat) : Sym := { st_info := type, st_shndx := shndx, st_value := value, st_size := size }

/-- a file with a local function `h` 8 bytes into its code, and a call of it -/
def staticElf : ElfFile where
  isObjectFile := true
  sectionHeaders := [{}, { demoSh SHT_PROGBITS 6 12 4 with sh_name := 1 }, { demoSh SHT_RELA 0 24 8 with sh_name := 7, sh_info := 1 }]
  secName := AMap.get? [(0, []), (1, b!".text"), (7, b!".rela.text")]
  syms := [{}, { staticSym STT_FUNC 1 8 4 with st_name := 1 }]
  symName := AMap.get? [(0, []), (1, b!"h")]
  shdrRelocs := [(2, [⟨1, some (-4), 1, R_X86_64_PLT32⟩])]
  dynsyms := []
  dynName := fun _ => none

/-- another one, with the entry point -/
def staticMainElf : ElfFile := { staticElf with
  syms := [{}, { staticSym STT_FUNC 1 8 4 with st_name := 1 }, { demoSym STT_FUNC 1 0 8 with st_name := 3 }]
  symName := AMap.get? [(0, []), (1, b!"h"), (3, b!"_start")] }

def staticBytes : Bytes := [0xe8, 0, 0, 0, 0, 0xc3, 0x90, 0x90, 0x90, 0x90, 0x90, 0xc3]
def staticMainBytes : Bytes := [0xe8, 0, 0, 0, 0, 0xc3, 0x90, 0x90, 0x90, 0x90, 0xc3, 0xc3]

def staticEnv : Env :=
  tableEnv [(Linker.calleePath, staticBytes), (mainPath, staticMainBytes)] [(staticBytes, staticElf), (staticMainBytes, staticMainElf)] []

def staticLinker : Linker := { options := Options.default, objects := [Linker.calleePath, mainPath], archives := [] }

theorem static_clean : CleanFiles staticEnv staticLinker := CleanFiles.of_table (by decide +kernel)

def staticFile : Loaded := ⟨.object 0, Linker.calleePath, staticBytes, staticElf⟩
def staticMainFile : Loaded := ⟨.object 1, mainPath, staticMainBytes, staticMainElf⟩

theorem static_run : ∃ log w w' f s, Linker.link staticEnv staticLinker LinkSched.id 5 = some (.ok f) ∧
    LinkRun staticEnv staticLinker LinkSched.id [staticFile, staticMainFile] log w w' f s ∧
    (match sectionsNamed f b!".text" with | [o] => o.allocated | _ => false) = true := by
  obtain ⟨log, loaded, w, w', f, s, h1, h2, h3, hp⟩ := LinkRun.of_links (P := fun w _ _ s => match secsNamed w s b!".text" with | [o] => o.allocated | _ => false)
    (fuel := 5) LinkSched.id_valid static_clean (by decide +kernel)
  have e := Linker.loaded_objects h3.calls rfl
  subst e
  simp only [h3.good.toGoodRun.secsNamed_eq] at hp
  exact ⟨log, w, w', f, s, h1, h3, hp⟩

theorem static_first : DefinedIn staticFile 1 { staticSym STT_FUNC 1 8 4 with st_name := 1 } b!"h" { demoSh SHT_PROGBITS 6 12 4 with sh_name := 1 } b!".text" :=
  ⟨⟨rfl, rfl, by decide⟩, by decide, ⟨rfl, by decide, rfl, by decide⟩, by decide⟩

theorem static_second : DefinedIn staticMainFile 1 { staticSym STT_FUNC 1 8 4 with st_name := 1 } b!"h" { demoSh SHT_PROGBITS 6 12 4 with sh_name := 1 } b!".text" :=
  ⟨⟨rfl, rfl, by decide⟩, by decide, ⟨rfl, by decide, rfl, by decide⟩, by decide⟩

theorem static_reference : Reference staticMainFile 1 b!".text" ⟨1, some (-4), 1, R_X86_64_PLT32⟩ { staticSym STT_FUNC 1 8 4 with st_name := 1 } := by
  refine ⟨⟨_, ⟨rfl, by decide, rfl, by decide⟩, by decide⟩, ⟨by decide, 0, 0, by decide⟩, ?_, rfl⟩
  show (staticMainElf.usedRelocs.filter fun z => z.2.1 = 2).Pairwise fun y z => Disjoint (siteOf y.2.2.2.rela) (siteOf z.2.2.2.rela)
  decide +kernel

theorem static_own : Reference staticFile 1 b!".text" ⟨1, some (-4), 1, R_X86_64_PLT32⟩ { staticSym STT_FUNC 1 8 4 with st_name := 1 } := by
  refine ⟨⟨_, ⟨rfl, by decide, rfl, by decide⟩, by decide⟩, ⟨by decide, 0, 0, by decide⟩, ?_, rfl⟩
  show (staticElf.usedRelocs.filter fun z => z.2.1 = 2).Pairwise fun y z => Disjoint (siteOf y.2.2.2.rela) (siteOf z.2.2.2.rela)
  decide +kernel

/-- `C131`: the call of the static function `h` of the second file leads neither to the `h` of the first file nor to its own -/
example : ∃ log w w' f s o v, LinkRun staticEnv staticLinker LinkSched.id [staticFile, staticMainFile] log w w' f s ∧ sectionsNamed f b!".text" = [o] ∧
    Reaches f o (12 + 1) ⟨1, 2 ^ 32 * 1 + 4, -4⟩ v ∧ o.addr + 0 + 8 < v ∧ o.addr + 12 + 8 < v := by
  obtain ⟨log, w, w', f, s, _, R, ha⟩ := static_run
  obtain ⟨o, o', o2, v, h1, h2, h3, h4, h5⟩ := C131_reference_violated R static_clean (pre := []) (post := [staticMainFile]) rfl static_first
    (pre' := [staticFile]) (post' := []) rfl static_second (.inl (by intro e; exact absurd (congrArg (·.source) e) (by decide))) (by decide) (by decide)
    (pre'' := [staticFile]) (post'' := []) rfl static_reference rfl (by decide) (.inl fun p hp => by cases hp)
  rw [h1] at h2 h3
  cases h2
  cases h3
  rw [h1] at ha
  have := h5 ha ha (by decide) (by decide)
  exact ⟨log, w, w', f, s, o, v, R, h1, h4, this.1, this.2⟩

/-- `C131_same_partial`: the calls in the two files -/
example : ∃ log w w' f s o y, LinkRun staticEnv staticLinker LinkSched.id [staticFile, staticMainFile] log w w' f s ∧ sectionsNamed f b!".text" = [o] ∧
    Reaches f o (0 + 1) ⟨1, 2 ^ 32 * 1 + 4, -4⟩ y ∧ Reaches f o (12 + 1) ⟨1, 2 ^ 32 * 1 + 4, -4⟩ y := by
  obtain ⟨log, w, w', f, s, _, R, ha⟩ := static_run
  obtain ⟨o, o', y, h1, h2, _, h3, h4⟩ := C131_same_partial R static_clean (pre := []) (x := staticFile) (post := [staticMainFile]) rfl
    static_own
    (n := b!"h") rfl (by decide) (pre' := [staticFile]) (post' := []) rfl static_reference rfl (by decide) (.inl fun p hp => by cases hp)
  rw [h1] at h2
  cases h2
  exact ⟨log, w, w', f, s, o, _, R, h1, h3, h4⟩

end Dld
