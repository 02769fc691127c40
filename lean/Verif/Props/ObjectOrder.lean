import Verif.Props.Complete
/-! # The order of the objects: C141 -/
namespace Dld
open Writer Spec

/-- the object files named on the command line, in their order -/
theorem objectsOf_elf (env : Env) (l : Linker) : (objectsOf env l).map (·.elf) =
    l.objects.filterMap fun p => (env.read p).bind fun d => (env.parseElf d).bind fun e => if e.isObjectFile then some e else none := by
  unfold objectsOf
  rw [List.map_filterMap]
  have : ∀ (k : Nat) (ps : List Path), (ps.zipIdx k).filterMap (fun x => ((env.read x.1).bind fun d => (env.parseElf d).bind fun e =>
      if e.isObjectFile then some (⟨.object x.2, x.1, d, e⟩ : Loaded) else none).map (·.elf)) =
      ps.filterMap fun p => (env.read p).bind fun d => (env.parseElf d).bind fun e => if e.isObjectFile then some e else none := by
    intro k ps
    induction ps generalizing k with
    | nil => rfl
    | cons p ps ih =>
      rw [List.zipIdx_cons, List.filterMap_cons, List.filterMap_cons, ih]
      cases env.read p with
      | none => rfl
      | some d =>
        simp only [Option.bind_some]
        cases env.parseElf d with
        | none => rfl
        | some e => cases h : e.isObjectFile <;> simp [h]
  exact this 0 l.objects

section
variable {env : Env} {l l' : Linker}

theorem Reordered.archives (h : Reordered l l') : l'.archives = l.archives := by rw [h.rest]
theorem Reordered.options (h : Reordered l l') : l'.options = l.options := by rw [h.rest]

theorem Reordered.symm (h : Reordered l l') : Reordered l' l := by
  refine ⟨h.objects.symm, ?_⟩
  rw [h.rest]

theorem Reordered.at (h : Reordered l l') {p : Path} {d : Bytes} {e : ElfFile} (hi : InputAt env l' p d e) : InputAt env l p d e := by
  cases hi with
  | object hp hd he ho => exact .object (h.objects.mem_iff.1 hp) hd he ho
  | member hp hd ha hn hm he ho => exact .member (by rw [← h.archives]; exact hp) hd ha hn hm he ho

theorem Reordered.input (h : Reordered l l') {e : ElfFile} (hi : IsInput env l' e) : IsInput env l e := by
  cases hi with
  | object hp hd he ho => exact .object (h.objects.mem_iff.1 hp) hd he ho
  | member hp hd ha hm he ho => exact .member (by rw [← h.archives]; exact hp) hd ha hm he ho

theorem Reordered.inputSym (h : Reordered l l') {p : Path} {d : Bytes} {j : Nat} {s : Sym} {n : Name} (hi : InputSym env l' p d j s n) :
    InputSym env l p d j s n := by
  obtain ⟨e, h1, h2⟩ := hi
  exact ⟨e, h.at h1, h2⟩

theorem Reordered.elfs (h : Reordered l l') : ((objectsOf env l').map (·.elf)).Perm ((objectsOf env l).map (·.elf)) := by
  rw [objectsOf_elf, objectsOf_elf]
  exact h.objects.filterMap _

theorem Reordered.loaded (h : Reordered l l') {x : Loaded} (hx : x ∈ objectsOf env l') : ∃ y ∈ objectsOf env l, y.elf = x.elf :=
  List.mem_map.1 (h.elfs.mem_iff.1 (List.mem_map_of_mem hx))

theorem Reordered.mentioned (h : Reordered l l') {s : Sym} {n : Name} (hm : MentionedIn (objectsOf env l') s n) : MentionedIn (objectsOf env l) s n := by
  obtain ⟨x, hx, hs⟩ := hm
  obtain ⟨y, hy, e⟩ := h.loaded hx
  exact ⟨y, hy, by rw [e]; exact hs⟩

theorem Reordered.clean (h : Reordered l l') (hc : CleanFiles env l) : CleanFiles env l' := by
  refine ⟨fun e sh n he => hc.names e sh n (h.input he), fun e sh he => hc.first e sh (h.input he), fun e sh he => hc.unnamed e sh (h.input he),
    fun e sh e' sh' n he hs he' => hc.nobits e sh e' sh' n (h.input he) hs (h.input he'), fun e s n he => hc.symbols e s n (h.input he), ?_⟩
  intro p s n hl
  refine hc.dynsyms p s n ?_
  unfold LibraryHas at hl ⊢
  rwa [← h.options]

theorem Reordered.sound (h : Reordered l l') (hc : SoundFiles env l) : SoundFiles env l' := by
  refine ⟨by rw [h.options]; exact hc.loader, fun p d e sh hi => hc.inside p d e sh (h.at hi), fun p d e sh hi => hc.unnamed p d e sh (h.at hi),
    fun p d e s n hi => hc.nameless p d e s n (h.at hi), fun p d e k pos j rel hi => hc.symbols p d e k pos j rel (h.at hi), ?_, ?_⟩
  · rw [h.options]; exact hc.libraries
  · rw [h.archives]; exact hc.members

theorem Reordered.relocs (h : Reordered l l') (hc : SoundRelocs env l) : SoundRelocs env l' := by
  refine ⟨fun p d e k pos j rel hi => hc.type p d e k pos j rel (h.at hi), fun p d e k pos j rel sh hi => hc.home p d e k pos j rel sh (h.at hi),
    fun p d e k pos j rel s n hi hr ht hs hn => ?_, fun p d e hi => hc.apart p d e (h.at hi),
    fun p d e k pos j rel sh n hi hr hs hn p' d' e' sh' hi' => hc.loaded p d e k pos j rel sh n (h.at hi) hr hs hn p' d' e' sh' (h.at hi')⟩
  obtain ⟨h1, h2⟩ := hc.tls p d e k pos j rel s n (h.at hi) hr ht hs hn
  exact ⟨h1, fun p d e s hi => h2 p d e s (h.at hi)⟩

theorem Reordered.names (h : Reordered l l') (hn : NamesSmall env l) : NamesSmall env l' := by
  intro ns hnd hall
  refine hn ns hnd fun n hm => (hall n hm).imp_right ?_
  rintro ⟨p, d, e, s, hi, hs⟩
  exact ⟨p, d, e, s, h.at hi, hs⟩

theorem Reordered.flags (h : Reordered l l') {F : List Nat} (hF : FewFlags env l F) : FewFlags env l' F :=
  ⟨fun p d e sh n hi => hF.flags p d e sh n (h.at hi), hF.few⟩

theorem Reordered.small (h : Reordered l l') {V K : Nat} (hS : SmallObjects env l V K) : SmallObjects env l' V K := by
  have sums : ∀ f : ElfFile → Nat, ((objectsOf env l').map fun x => f x.elf).sum = ((objectsOf env l).map fun x => f x.elf).sum := by
    intro f
    have := (h.elfs (env := env)).map f
    rw [List.map_map, List.map_map] at this
    exact this.sum_nat
  refine ⟨?_, ?_, ⟨hS.definitions.1, fun n => ?_⟩, ?_⟩
  · intro x hx
    obtain ⟨y, hy, e⟩ := h.loaded hx
    rw [← e]; exact hS.values y hy
  · intro x hx
    obtain ⟨y, hy, e⟩ := h.loaded hx
    rw [← e]; exact hS.addends y hy
  · rw [sums fun e => e.definitions n]; exact hS.definitions.2 n
  · rw [sums ElfFile.cost, h.options]; exact hS.small

theorem Reordered.readable (h : Reordered l l') (hR : ReadableFiles env l) : ReadableFiles env l' := by
  refine ⟨fun p hp => hR.objects p (h.objects.mem_iff.1 hp), by rw [h.options]; exact hR.libraries, by rw [h.archives]; exact hR.archives,
    fun p d e sh hi => hR.sections p d e sh (h.at hi), fun p d e s hi => hR.symbols p d e s (h.at hi),
    fun p d e k pos j rel hi => hR.relocs p d e k pos j rel (h.at hi)⟩

theorem Reordered.once (h : Reordered l l') (hD : DefinedOnce env l) : DefinedOnce env l' :=
  ⟨h.objects.nodup_iff.2 hD.files, fun n p d j s p' d' j' s' h1 a b h2 => hD.names n p d j s p' d' j' s' (h.inputSym h1) a b (h.inputSym h2)⟩

theorem Reordered.inSection (h : Reordered l l') {n : Name} (hd : DefinedInSection env l n) : DefinedInSection env l' n := by
  obtain ⟨x, hx, s, hs, hd⟩ := hd
  obtain ⟨y, hy, e⟩ := h.symm.loaded hx
  exact ⟨y, hy, s, by rw [e]; exact hs, by rw [e]; exact hd⟩

theorem Reordered.arrays (h : Reordered l l') {n : Name} (hd : ArrayBound env l n) : ArrayBound env l' n := by
  obtain ⟨x, hx, i, sh, m, S, E, hd⟩ := hd
  obtain ⟨y, hy, e⟩ := h.symm.loaded hx
  exact ⟨y, hy, i, sh, m, S, E, by rw [e]; exact hd⟩

theorem Reordered.globally (h : Reordered l l') {n : Name} (hd : DefinedGlobally env l n) : DefinedGlobally env l' n := by
  obtain ⟨s, hm, hd⟩ := hd
  exact ⟨s, h.symm.mentioned hm, hd⟩

theorem Reordered.needs (h : Reordered l l') {n : Name} (hd : Needs env l' n) : Needs env l n := by
  obtain ⟨s, hm, hd⟩ := hd
  exact ⟨s, h.mentioned hm, hd⟩

end

namespace Linker
variable {env : Env} {l l' : Linker} {sched sched' : LinkSched} {fuel : Nat} {F : List Nat} {V K : Nat} {file : Bytes}

/-- In a link that succeeds, every name that a linked file needs is in a library, is provided by the linker, or some linked file defines it. -/
theorem needed_linked (hv : sched.Valid) (hc : CleanFiles env l) (hf : TablesFit env l sched fuel) (h : link env l sched fuel = some (.ok file)) :
    ∃ loaded log w, Calls env l (NeededIn env l) loaded log ∧ Hist l.options (opsOf log) w ∧ ∀ n s, MentionedIn loaded s n → s.st_shndx = 0 →
      (s.st_info / 16 = 1 ∨ s.st_info / 16 = 2) → (∀ s', MentionedIn loaded s' n → s'.st_info / 16 ≤ 2) →
      n = b!"_GLOBAL_OFFSET_TABLE_" ∨ (∃ x ∈ loaded, ∃ (i : Nat) (sh : SectionHeader) (m S E : Name), x.elf.sectionHeaders[i]? = some sh ∧
        sh.sh_type ∉ auxiliaryTypes ∧ x.elf.secName sh.sh_name = some m ∧ (m, S, E) ∈ arrayBounds ∧ (n = S ∨ n = E)) ∨
      InLibrary env l n ∨ ∃ s', MentionedIn loaded s' n ∧ s'.st_shndx ≠ 0 := by
  obtain ⟨log, loaded, w, w', secs, hg, h1, h2, h3⟩ := link_ok hv h
  obtain ⟨f1, f2, f3⟩ := hf w w' hg h2.compute
  have h4 := calls_spec hv h1 h2.hist f2
  refine ⟨loaded, log, w, h4, h2.hist, ?_⟩
  intro n s hs _ hbind hb
  apply Classical.byContradiction
  intro hno
  rw [not_or, not_or, not_or] at hno
  obtain ⟨hgot, harr, hlib, hdef⟩ := hno
  obtain ⟨st, hst⟩ := computeSections_stages h2.compute
  obtain ⟨ns, nd, T⟩ := h2.hist.tableFacts
  have hall : ∀ s sec, Mention (opsOf log) s sec n → s.st_shndx = 0 ∧ s.st_info / 16 ≤ 2 := by
    intro s sec hm
    have := h4.mention_iff.2 ⟨sec, hm⟩
    exact ⟨Classical.byContradiction fun h0 => hdef ⟨s, this, h0⟩, hb s this⟩
  obtain ⟨sec, hm⟩ := h4.mention_iff.1 hs
  obtain ⟨hns, y, hy, hu⟩ := h2.hist.wanted f2 T hm hbind (fun s sec hm => (hall s sec hm).1) (fun s sec hm => (hall s sec hm).2) (by
    intro e path r hop
    exact hlib ⟨path, e, (h4.dynsym hop).1⟩)
  have hmk : ¬ MarkedIn (opsOf log) (.named (u32 (nameOff ns n))) n := by
    rintro (⟨m, sh, d, sr, hmn, hp, hin⟩ | ⟨m, S, E, sh, d, sr, hmS, hSE, hp⟩)
    · obtain ⟨s', n', path', hop', habs⟩ := mem_notesAt.1 hin
      have h3 : s'.st_info % 16 ≠ 3 := by
        intro e
        obtain ⟨k, i, e⟩ := h2.hist.section_ref hop' e
        cases e
      have hr := (T.inv.sref _ _ _ _ _ hop').2 h3
      have hnn : n' = n := (u32_nameOff_inj T.symstr f2 hns ((T.symNames n').2 (.inr (mem_symNames hop'))) (SymbolRef.named.inj hr)).symm
      subst hnn
      have hmm : Mention (opsOf log) s' (some sr) n' := ⟨⟨_, _, hop'⟩, h3⟩
      refine h4.undefined_unattached hc hmm (hall _ _ hmm).1 sr ⟨rfl, habs, fun sh d hp' => ?_⟩
      obtain ⟨s1, _, hsp, hf1, _⟩ := h2.hist.pushed_section hp ((h4.good hc).clean.foreign hp hmn _)
      rw [hsp, h2.hist.null_push hp'] at hf1
      exact absurd hf1 (by decide)
    · obtain ⟨x, hx, i, hi, ht, hsn, _⟩ := h4.push hp
      exact harr ⟨x, hx, i, sh, m, S, E, hi, ht, hsn, hmS, hSE⟩
  obtain ⟨s', hs', hu'⟩ := st.unmarked_undefined hv.toSched h2.hist (h4.good hc) f2 T hns hgot hmk hy hu
  rw [hst] at hs'
  have := (mem_undefinedSymbols hv.toSched.symIter).2 ⟨_, s', rfl, hs', hu'⟩
  rw [h3] at this
  cases this

/-- In a link of objects and libraries that succeeds, every name that is needed is in a library, is provided by the linker, or some file defines it. -/
theorem needed_defined (hv : sched.Valid) (hc : CleanFiles env l) (ha : l.archives = []) (hf : TablesFit env l sched fuel)
    (h : link env l sched fuel = some (.ok file)) {n : Name} (hn : Needs env l n)
    (hb : ∀ s, MentionedIn (objectsOf env l) s n → s.st_info / 16 ≤ 2) :
    n = b!"_GLOBAL_OFFSET_TABLE_" ∨ ArrayBound env l n ∨ InLibrary env l n ∨ ∃ s, MentionedIn (objectsOf env l) s n ∧ s.st_shndx ≠ 0 := by
  obtain ⟨loaded, log, w, h4, _, hall⟩ := needed_linked hv hc hf h
  have hload := loaded_objects h4 ha
  subst hload
  obtain ⟨s, hs, h0, hbind⟩ := hn
  exact hall n s hs h0 hbind hb

/-- **C141** is violated: the objects link in one order and not in another. -/
theorem C141_order_violated : ∃ (env : Env) (l l' : Linker), CleanFiles env l ∧ ReadableFiles env l ∧ GlobalOnce env l ∧ Reordered l l' ∧
    (∃ file, link env l LinkSched.id 5 = some (.ok file)) ∧ ∃ p q, link env l' LinkSched.id 5 = some (.error (.err p (.alreadyDefined b!"f" q))) := by
  refine ⟨lonelyEnv 1, lonelyLinker [weakPath, refPath, strongPath], lonelyLinker [refPath, weakPath, strongPath], CleanFiles.of_table (by decide +kernel),
    ReadableFiles.of_table rfl rfl (by decide +kernel) (by decide +kernel), GlobalOnce.of_table rfl (by decide) (by decide +kernel), ⟨.swap _ _ _, rfl⟩, ?_,
    strongPath, refPath, by decide +kernel⟩
  have h : links (lonelyEnv 1) (lonelyLinker [weakPath, refPath, strongPath]) LinkSched.id 5 (fun _ _ _ _ => true) = true := by decide +kernel
  obtain ⟨log, loaded, w, w', f, s, h1, _⟩ := LinkRun.of_links LinkSched.id_valid (CleanFiles.of_table (by decide +kernel)) h
  exact ⟨f, h1⟩

/-- **C141, the part that holds.** If well-formed objects that define each name once link in one order, they link in every order, whatever order the linker
walks through its tables in. Missing: weak definitions beside global ones (`C141_order_violated`), absolute and common symbols that are not global,
and archives; for libraries see `C141_libraries_partial`. -/
theorem C141_order_partial (hc : CleanFiles env l) (hf : SoundFiles env l) (hr : SoundRelocs env l) (hn : NamesSmall env l) (hF : FewFlags env l F)
    (hv : sched.Valid) (hv' : sched'.Valid) (ha : l.archives = []) (hs : l.options.sharedLibs = []) (S : SmallObjects env l V K) (hR : ReadableFiles env l)
    (hD : DefinedOnce env l) (hd : PlainDefinitions env l) (hp : Reordered l l') (h : link env l sched fuel = some (.ok file)) :
    ∃ rounds file', ∀ fuel', rounds ≤ fuel' → link env l' sched' fuel' = some (.ok file') := by
  refine C140_objects_partial (hp.clean hc) (hp.sound hf) (hp.relocs hr) (hp.names hn) (hp.flags hF) hv' (by rw [hp.archives]; exact ha) (by rw [hp.options]; exact hs)
    (hp.small S) (hp.readable hR) (hp.once hD) ?_
  intro n hneed
  replace hneed := hp.needs hneed
  have hm : Moderate env l sched fuel := by
    intro w loaded log _ h1 h2
    rw [loaded_objects h1 ha] at h1
    exact ⟨V, K, h1.fits h2 hc hn hs S⟩
  rcases needed_defined hv hc ha (hm.tables hc hf hr hn hF hv) h hneed (fun s hs => (hd n s hs).1) with hgot | harr | ⟨p, s, hlib, _⟩ | ⟨s, hms, h0⟩
  · exact .inl hgot
  · exact .inr (.inr (.inr (hp.arrays harr)))
  · rw [hs] at hlib; cases hlib
  · rcases (hd n s hms).2 h0 with hg | hsec
    · exact .inr (.inl (hp.globally ⟨s, hms, h0, hg⟩))
    · exact .inr (.inr (.inl (hp.inSection hsec)))

/-- the two objects of the last example link in the other order as well -/
example (sched : LinkSched) (hv : sched.Valid) : ∃ rounds file, ∀ fuel, rounds ≤ fuel →
    link pairEnv { pairLinker with objects := [calleePath, mainPath] } sched fuel = some (.ok file) := by
  have h : links pairEnv pairLinker LinkSched.id 5 (fun _ _ _ _ => true) = true := by decide +kernel
  have hc : CleanFiles pairEnv pairLinker := CleanFiles.of_table (by decide +kernel)
  obtain ⟨log, loaded, w, w', f, s, h1, _⟩ := LinkRun.of_links LinkSched.id_valid hc h
  refine C141_order_partial hc pair_sound pair_relocs pair_names pair_flags LinkSched.id_valid hv rfl rfl pair_small pair_readable pair_once ?_ ⟨.swap _ _ _, rfl⟩ h1
  · intro n s hs
    have := (by decide +kernel : ∀ x ∈ (tableSyms pairFiles pairElfs [mainPath, calleePath]).map (·.2),
      x.1.st_info / 16 ≤ 2 ∧ (x.1.st_shndx ≠ 0 → x.1.st_info / 16 = 1)) _ (Mentioned.of_table (files := pairFiles) (elfs := pairElfs) hs)
    exact ⟨this.1, fun h0 => .inl (this.2 h0)⟩

/-! ### Start-up code and constructors -/

/-- start-up code that runs through the array of initialisers -/
def startupElf : ElfFile where
  isObjectFile := true
  sectionHeaders := [{}, { demoSh SHT_PROGBITS 6 16 4 with sh_name := 1 }, { demoSh SHT_RELA 0 48 8 with sh_name := 7, sh_info := 1 }]
  secName := AMap.get? [(0, []), (1, b!".text"), (7, b!".rela.text")]
  syms := [{}, { demoSym STT_FUNC 1 0 16 with st_name := 1 }, { demoSym 0 0 0 0 with st_name := 8 }, { demoSym 0 0 0 0 with st_name := 27 }]
  symName := AMap.get? [(0, []), (1, b!"_start"), (8, b!"__init_array_start"), (27, b!"__init_array_end")]
  shdrRelocs := [(2, [⟨2, some (-4), 2, R_X86_64_PC32⟩, ⟨8, some (-4), 3, R_X86_64_PC32⟩])]
  dynsyms := []
  dynName := fun _ => none

/-- an object with a constructor -/
def setupElf : ElfFile where
  isObjectFile := true
  sectionHeaders := [{}, { demoSh SHT_PROGBITS 6 8 4 with sh_name := 1 }, { demoSh 14 3 8 8 with sh_name := 7, sh_offset := 8 },
    { demoSh SHT_RELA 0 24 8 with sh_name := 19, sh_info := 2 }]
  secName := AMap.get? [(0, []), (1, b!".text"), (7, b!".init_array"), (19, b!".rela.init_array")]
  syms := [{}, { demoSym STT_FUNC 1 0 4 with st_name := 1 }]
  symName := AMap.get? [(0, []), (1, b!"setup")]
  shdrRelocs := [(3, [⟨0, some 0, 1, R_X86_64_64⟩])]
  dynsyms := []
  dynName := fun _ => none

def startupFiles : List (Path × Bytes) := [(mainPath, List.replicate 16 0x90), (calleePath, List.replicate 16 0xc3)]
def startupElfs : List (Bytes × ElfFile) := [(List.replicate 16 0x90, startupElf), (List.replicate 16 0xc3, setupElf)]
def startupEnv : Env := tableEnv startupFiles startupElfs []
def startupLinker : Linker := { options := Options.default, objects := [mainPath, calleePath], archives := [] }

theorem startup_clean : CleanFiles startupEnv startupLinker := CleanFiles.of_table (by decide +kernel)
theorem startup_sound : SoundFiles startupEnv startupLinker := by
  refine SoundFiles.of_table (by decide +kernel) (by decide) ?_ ?_
  · intro p hp; cases hp
  · intro p hp; cases hp
theorem startup_relocs : SoundRelocs startupEnv startupLinker := SoundRelocs.of_table (by decide +kernel) (by decide +kernel)
theorem startup_names : NamesSmall startupEnv startupLinker := NamesSmall.of_table (by decide +kernel)
theorem startup_flags : FewFlags startupEnv startupLinker [0, 6, 3] := FewFlags.of_table (by decide +kernel) (by decide)
theorem startup_readable : ReadableFiles startupEnv startupLinker := ReadableFiles.of_table rfl rfl (by decide +kernel) (by decide +kernel)
theorem startup_once : DefinedOnce startupEnv startupLinker := DefinedOnce.of_table rfl (by decide) (by decide +kernel)
theorem startup_small : SmallObjects startupEnv startupLinker 100 1 := by
  refine ⟨by decide +kernel, by decide +kernel, ⟨by decide, ?_⟩, by decide +kernel⟩
  intro n
  have : (objectsOf startupEnv startupLinker).map (fun x => x.elf.definitions n) = [startupElf.definitions n, setupElf.definitions n] := rfl
  rw [this]
  have h1 : startupElf.definitions n = if b!"_start" = n then 1 else 0 := by
    simp only [ElfFile.definitions, startupElf, demoSym, STT_FUNC, List.filter, AMap.get?]
    by_cases h : b!"_start" = n <;> simp [h]
  have h2 : setupElf.definitions n = if b!"setup" = n then 1 else 0 := by
    simp only [ElfFile.definitions, setupElf, demoSym, STT_FUNC, List.filter, AMap.get?]
    by_cases h : b!"setup" = n <;> simp [h]
  rw [h1, h2]
  by_cases h : b!"_start" = n
  · subst h; decide
  · rw [if_neg h]
    by_cases h' : b!"setup" = n
    · rw [if_pos h']; decide
    · rw [if_neg h']; decide

/-- what the program needs are the bounds of an array that it has -/
theorem startup_bounds {n : Name} (h : Needs startupEnv startupLinker n) : ArrayBound startupEnv startupLinker n := by
  obtain ⟨s, hs, h0, hb⟩ := h
  have := (by decide +kernel : ∀ x ∈ (tableSyms startupFiles startupElfs [mainPath, calleePath]).map (·.2),
    x.1.st_shndx = 0 → (x.1.st_info / 16 = 1 ∨ x.1.st_info / 16 = 2) → x.2 = b!"__init_array_start" ∨ x.2 = b!"__init_array_end") _
    (Mentioned.of_table (files := startupFiles) (elfs := startupElfs) hs) h0 hb
  exact ⟨⟨.object 1, calleePath, List.replicate 16 0xc3, setupElf⟩, .tail _ (.head _), 2, _, _, _, _, rfl, by decide, rfl, .head _, this⟩

/-- the start-up code and the constructor link, in both orders -/
example (sched sched' : LinkSched) (hv : sched.Valid) (hv' : sched'.Valid) :
    (∃ rounds file, ∀ fuel, rounds ≤ fuel → link startupEnv startupLinker sched fuel = some (.ok file)) ∧
    ∃ rounds file, ∀ fuel, rounds ≤ fuel → link startupEnv { startupLinker with objects := [calleePath, mainPath] } sched' fuel = some (.ok file) := by
  obtain ⟨rounds, file, h⟩ := C140_objects_partial startup_clean startup_sound startup_relocs startup_names startup_flags hv rfl rfl startup_small startup_readable
    startup_once fun n hn => .inr (.inr (.inr (startup_bounds hn)))
  refine ⟨⟨rounds, file, h⟩, C141_order_partial startup_clean startup_sound startup_relocs startup_names startup_flags hv hv' rfl rfl startup_small startup_readable
    startup_once ?_ ⟨.swap _ _ _, rfl⟩ (h rounds (Nat.le_refl _))⟩
  intro n s hs
  have := (by decide +kernel : ∀ x ∈ (tableSyms startupFiles startupElfs [mainPath, calleePath]).map (·.2),
    x.1.st_info / 16 ≤ 2 ∧ (x.1.st_shndx ≠ 0 → x.1.st_info / 16 = 1)) _ (Mentioned.of_table (files := startupFiles) (elfs := startupElfs) hs)
  exact ⟨this.1, fun h0 => .inl (this.2 h0)⟩

end Linker
end Dld
