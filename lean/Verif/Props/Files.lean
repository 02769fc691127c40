import Verif.Lemmas.Files
import Verif.Props.Start
import Verif.Props.Sound
import Verif.Props.Resolve
/-! # C111–C114: from the input files to the output file -/
namespace Dld
open Writer Spec StringTable SymbolTable

variable {env : Env} {l : Linker} {sched : LinkSched} {loaded pre post pre' post' : List Loaded} {log : List Call} {w w' : Writer} {file : Bytes}
  {secs : List Section} {x x' : Loaded}

/-- names left to the libraries are imported -/
theorem LinkRun.imported (R : LinkRun env l sched loaded log w w' file secs) (hc : CleanFiles env l) {n : Name} (hn : LibraryName loaded n) :
    ImportedIn (opsOf log) n := by
  have h := R.good
  have hv := h.run.valid
  obtain ⟨s, hs⟩ := hn.used
  obtain ⟨sec, hm⟩ := R.calls.mention_iff.1 hs
  obtain ⟨⟨path, r, hop⟩, h3⟩ := hm
  have hy : Refers (opsOf log) r n := ⟨s, sec, path, hop, h3⟩
  refine (h.imported_iff hy).1 (Classical.byContradiction fun hni => ?_)
  obtain ⟨ns, nd, T⟩ := h.run.hist.tableFacts
  have hr := (T.inv.sref _ _ _ _ _ hop).2 h3
  have hns : n ∈ ns := (T.symNames n).2 (.inr (mem_symNames hop))
  obtain ⟨x, hx⟩ := Option.isSome_iff_exists.1 (T.inv.sref _ _ _ _ _ hop).1
  have hdyn : x.dynamic = none := by
    cases hd : x.dynamic with
    | none => rfl
    | some d => exact absurd ⟨x, hx, by rw [hd]; rfl⟩ hni
  rw [hr] at hx
  have hx' : (w.symtab.mapSyms undyn).get (.named (u32 (nameOff ns n))) = some (undyn x) := by rw [get_mapSyms, hx]; rfl
  have hP := merged_forall T.inv.sym (P := fun x => x.sym.st_shndx = 0 ∧ (x.sym.st_info / 16 = 1 ∨ x.sym.st_info / 16 = 2))
    (fun h0 => absurd h0 (h.nonzero T hn.named hns)) (fun a ha hm => ?_) (fun a _ _ hP old s' ho hr => ?_) hx'
  · have hP : x.sym.st_shndx = 0 ∧ (x.sym.st_info / 16 = 1 ∨ x.sym.st_info / 16 = 2) := hP
    obtain ⟨st, hst⟩ := h.run.stages
    have ho := T.ordinary h.symstr hns hn.ordinary
    have h1 := h.toGoodRun.unplaced_symbol st hst ho.toUnbound (fun sr hin => Nat.lt_of_not_le fun hf => by
      obtain ⟨s', hm', ha'⟩ := h.noted_attached T hns hin hf
      exact R.calls.undefined_unattached hc hm' (hn.undefined s' (R.calls.mention_iff.2 ⟨_, hm'⟩)).1 _ ha')
    rw [special_other (by rw [st.patched_symstr]; exact ho) st.hspecial, SymbolTable.view_get st.patched_sym, hx, Option.map_some] at h1
    obtain ⟨y, hy, hys⟩ := Option.map_eq_some_iff.1 h1
    have hlen : st.final.sections.length ≤ 65536 := by
      rw [hst]
      have := h.run.secs_length
      have := h.fit.count
      omega
    have hy' := hy
    rw [← hst] at hy'
    obtain ⟨z, hz, _, _, hzd⟩ := st.final_undefined hv h.run.hist hlen hy' (by rw [hys]; exact hP.1)
    rw [hx] at hz
    cases hz
    have hmem : SymbolRef.named (u32 (nameOff ns n)) ∈ w'.undefinedSymbols sched.symIter := by
      refine (Linker.mem_undefinedSymbols hv.symIter).2 ⟨_, y, rfl, hy, ?_⟩
      have e0 : SHN_UNDEF = 0 := rfl
      have e1 : STB_GLOBAL = 1 := rfl
      have e2 : STB_WEAK = 2 := rfl
      have k1 : stBind y.sym.st_info = 1 ∨ stBind y.sym.st_info = 2 := by rw [hys]; exact hP.2
      have k2 : y.sym.st_shndx = 0 := by rw [hys]; exact hP.1
      have k3 : y.dynamic = none := by rw [← hzd]; exact hdyn
      simp only [isUnresolved, Symbol.isGlobal, Symbol.isWeak, e0, e1, e2, k2, k3]
      rcases k1 with h | h <;> simp [h]
    rw [R.resolved] at hmem
    cases hmem
  · obtain ⟨s', sec', hm', hzs⟩ := h.mention_of T hns (fun _ h => h) ha hm
    have := hn.undefined s' (R.calls.mention_iff.2 ⟨_, hm'⟩)
    show a.sym.st_shndx = 0 ∧ (a.sym.st_info / 16 = 1 ∨ a.sym.st_info / 16 = 2)
    rw [hzs]
    exact this
  · rcases resolve_cases hr with ⟨_, h2, h3⟩ | ⟨_, h2, h3⟩
    · rw [h2, h3]; exact hP
    · rw [h2, h3, if_pos ho.1]; exact ⟨hP.1, ho.2⟩

/-! ## C111 -/

/-- **C111** Every section of every linked object file that is copied to the output is in the output section of its name: behind everything the files before
it and the earlier sections of its file put there, byte for byte as in its file except where its relocations apply. The output section is
exactly as long as all its parts. -/
theorem C111_contents (R : LinkRun env l sched loaded log w w' file secs) (hc : CleanFiles env l) (e : loaded = pre ++ x :: post) {i : Nat} {sh : SectionHeader}
    {n : Name} (S : SectionOf x i sh n) : ∃ o, sectionsNamed file n = [o] ∧ o.size = (loaded.map fun y => y.elf.bytesOf n).sum ∧
      (sh.sh_type ≠ 8 → sh.sh_offset + sh.sh_size ≤ x.data.length ∧ (bodyOf file o).length = o.size ∧
        ∀ b < sh.sh_size, (∀ rel, x.elf.RelocOf i rel → ¬ MayPatch rel.rela b) → (bodyOf file o)[placeOf pre x n i + b]? = x.data[sh.sh_offset + b]?) := by
  have hx : x ∈ loaded := by rw [e]; simp
  obtain ⟨a, b, n', d, r, hl, hn', hd⟩ := R.calls.section_call hx S.header S.copied
  rw [S.name] at hn'
  cases hn'
  have hp : (⟨x.source, .section i, .push n sh d r⟩ : Call) ∈ log := by rw [hl]; simp
  obtain ⟨o, ho, hsize, _, hlen, hbytes⟩ := C50_merged_partial R.good.toGoodRun S.named (List.mem_map.2 ⟨_, hp, rfl⟩)
  have htot := R.calls.total_eq n
  refine ⟨o, ho, by rw [hsize]; exact htot, fun h8 => ?_⟩
  unfold SectionBytes at hd
  rw [if_neg h8] at hd
  obtain ⟨hin, rfl⟩ := hd
  have hops : opsOf log = opsOf a ++ Op.push n sh (some ((x.data.drop sh.sh_offset).take sh.sh_size)) r :: opsOf b := by rw [hl, opsOf_append]; rfl
  have hdl : ((x.data.drop sh.sh_offset).take sh.sh_size).length = sh.sh_size := by rw [List.length_take, List.length_drop]; omega
  refine ⟨hin, ?_, ?_⟩
  · rw [hlen, hsize]
    have hall : ∀ p ∈ pushesOf n (opsOf log), p.1.sh_size = (p.2.getD []).length := by
      intro p hp'
      obtain ⟨r', hr'⟩ := mem_pushesOf hp'
      obtain ⟨bs, hbs, hl⟩ := R.good.good.clean.datas (List.mem_map.2 ⟨_, hp, rfl⟩) S.named rfl _ hp'
      rw [hbs]
      exact hl.symm
    unfold startOf
    rw [List.map_congr_left hall]
  · intro k hk hun
    have h1 := hbytes _ _ _ _ _ hops k (by rw [hdl]; exact hk) (fun rel y path hrel hpatch => by
      obtain ⟨c, hcm, ec⟩ := List.mem_map.1 hrel
      obtain ⟨k2, j2, rel2, hu, hrr, _, _⟩ := R.calls.reloc_home hc R.good.run.hist hx S h8 hp hcm ec
      rw [hrr] at hpatch
      exact hun rel2 ⟨(Calls.used_mem hu).2, k2, j2, (Calls.used_mem hu).1⟩ hpatch)
    rw [← R.calls.offset_eq e hl, ← offsetOf_startOf R.good.good.clean hops S.named (.inl rfl), h1, List.getElem?_take, if_pos hk, List.getElem?_drop]

/-! ## C112 -/

/-- **C112, symbols.** The only definition of a name, by symbol number `j` of the file `x`, gives the symbol of the output its value: the address of the output
section, plus where the section of `x` starts in it, plus the value in `x`. -/
theorem C112_symbol (R : LinkRun env l sched loaded log w w' file secs) (hc : CleanFiles env l) (e : loaded = pre ++ x :: post) {j : Nat} {s : Sym} {n m : Name}
    {sh : SectionHeader} (hd : Definition pre x post j s n) (S : SectionOf x s.st_shndx sh m) (hz : sh.sh_type ≠ 8 ∨ FirstOf pre x m s.st_shndx) :
    ∃ o y, sectionsNamed file m = [o] ∧ symbolsNamed file n = [y] ∧ y.value = o.addr + placeOf pre x m s.st_shndx + s.st_value ∧
      (shdrs file)[y.shndx]? = some o := by
  obtain ⟨A, B, a, b, sr, d, y, hl, hl', hdat, honly, hk⟩ := R.calls.definition_call hc e hd S
  have hops : opsOf log = opsOf A ++ Op.sym s (some sr) n x.path y :: opsOf B := by rw [hl, opsOf_append]; rfl
  have hops' : opsOf log = opsOf a ++ Op.push m sh d sr :: opsOf b := by rw [hl', opsOf_append]; rfl
  have hz' : d.isSome ∨ pushesOf m (opsOf a) = [] := by
    rcases hz with h8 | hf
    · unfold SectionBytes at hdat
      rw [if_neg h8] at hdat
      exact .inl (by rw [hdat.2]; rfl)
    · exact .inr (R.calls.first_push e hl' hf)
  have hoff := R.calls.offset_eq (n := m) e hl'
  have hment : Mention (opsOf log) s (some sr) n := ⟨⟨_, _, by rw [hops]; exact List.mem_append_right _ List.mem_cons_self⟩, hd.symbol.2.2⟩
  have hatt : Attached (opsOf log) s (some sr) sr := by
    refine ⟨rfl, hd.absolute, fun sh0 d0 hp0 => ?_⟩
    have := R.good.run.hist.same_name hp0 (by rw [hops']; exact List.mem_append_right _ List.mem_cons_self) rfl
    exact S.named this.symm
  rcases hk with hk | hk
  · obtain ⟨o, v, s', sec', h1, h2, h3, h4, h5⟩ := (C54_partial R.good hd.named hd.ordinary hment).1 sr m sh d _ _ hatt honly hops' S.named hz'
    exact ⟨o, v, h1, h2, by rw [h4, hoff, hk s' sec' h3], h5⟩
  · obtain ⟨o, v, h1, h2, h3, _, _, _, h4⟩ := C53_partial R.good hops hd.named hd.ordinary hk hops' S.named hz'
    exact ⟨o, v, h1, h2, by rw [h3, hoff], h4⟩

/-- **C112, references.** A reference in the file `x` to a symbol that the file `x'` defines, by one of the relocations that hold an address or a distance,
leads to the place of the definition: behind everything that is put into the output section `m'` before the section of `x'`. -/
theorem C112_reference (R : LinkRun env l sched loaded log w w' file secs) (hc : CleanFiles env l) (e : loaded = pre ++ x :: post) {i : Nat} {m n : Name}
    {rel : InReloc} {s : Sym} (hr : Reference x i m rel s) (hn : x.elf.symName s.st_name = some n) (h3 : s.st_info % 16 ≠ 3) (ho : OwnName env l n)
    (e' : loaded = pre' ++ x' :: post') {j : Nat} {d : Sym} {m' : Name} {sh : SectionHeader} (hd : Definition pre' x' post' j d n)
    (S : SectionOf x' d.st_shndx sh m') (hz : sh.sh_type ≠ 8 ∨ FirstOf pre' x' m' d.st_shndx) :
    ∃ o o', sectionsNamed file m = [o] ∧ sectionsNamed file m' = [o'] ∧
      Reaches file o (placeOf pre x m i + rel.r_offset) rel.rela (o'.addr + placeOf pre' x' m' d.st_shndx + d.st_value) := by
  obtain ⟨y, j', s', sec, n', hra, hm, hj', hn', es⟩ := R.calls.refersAt hc R.good.run.hist e hr
  obtain ⟨sh0, S0, _⟩ := hr.home
  obtain ⟨o, v, h1, h2, h4⟩ := C88_direct R.good hra S0.named (R.calls.refers hm hn' es hn h3) (R.calls.not_imported ho)
  obtain ⟨o', v', h5, h6, h7, _⟩ := C112_symbol R hc e' hd S hz
  rw [h2] at h6
  cases h6
  rw [h7] at h4
  exact ⟨o, o', h1, h5, h4⟩

/-- **C112, sections.** A reference in the file `x` to the symbol of section number `k` of `x` leads to the place of that section in the output. -/
theorem C112_section (R : LinkRun env l sched loaded log w w' file secs) (hc : CleanFiles env l) (e : loaded = pre ++ x :: post) {i : Nat} {m : Name}
    {rel : InReloc} {s : Sym} (hr : Reference x i m rel s) (h3 : s.st_info % 16 = 3) (habs : s.st_shndx ≠ 0xfff1) {m' : Name} {sh : SectionHeader}
    (S : SectionOf x s.st_shndx sh m') (hz : sh.sh_type ≠ 8 ∨ FirstOf pre x m' s.st_shndx) :
    ∃ o o', sectionsNamed file m = [o] ∧ sectionsNamed file m' = [o'] ∧
      Reaches file o (placeOf pre x m i + rel.r_offset) rel.rela (o'.addr + placeOf pre x m' s.st_shndx) := by
  have hx : x ∈ loaded := by rw [e]; simp
  obtain ⟨y, j', s', sec, n', hra, hm, hj', hn', es⟩ := R.calls.refersAt hc R.good.run.hist e hr
  have e1 : s'.st_shndx = s.st_shndx := by rw [← es]
  have e2 : s'.st_info = s.st_info := by rw [← es]
  obtain ⟨sh0, S0, _⟩ := hr.home
  obtain ⟨A, B, eA⟩ := List.append_of_mem hm
  obtain ⟨_, hsec, hb⟩ := R.calls.symbol_just hx eA
  rw [e1] at hsec
  obtain ⟨sr, hsr⟩ := hb s.st_shndx (Calls.mem_copied.2 ⟨sh, S.header, S.copied⟩)
  have hs1 := (hsec sr).2 hsr
  subst hs1
  obtain ⟨m2, sh2, d, hp⟩ := hsr
  have hpl : (⟨x.source, .section s.st_shndx, .push m2 sh2 d sr⟩ : Call) ∈ log := by rw [eA]; exact List.mem_append_left _ hp
  obtain ⟨hh1, hh2, hh3, hh4⟩ := R.calls.push_call hx hpl
  rw [S.header] at hh1
  cases hh1
  rw [S.name] at hh3
  cases hh3
  obtain ⟨a, b, ea⟩ := List.append_of_mem hpl
  have hops : opsOf log = opsOf a ++ Op.push m' sh d sr :: opsOf b := by rw [ea, opsOf_append]; rfl
  have hz' : d.isSome ∨ pushesOf m' (opsOf a) = [] := by
    rcases hz with h8 | hf
    · unfold SectionBytes at hh4
      rw [if_neg h8] at hh4
      exact .inl (by rw [hh4.2]; rfl)
    · exact .inr (R.calls.first_push e ea hf)
  rw [← R.calls.offset_eq (n := m') e ea]
  exact C89_section R.good.toGoodRun hra S0.named (List.mem_map.2 ⟨_, hm, rfl⟩) (by rw [e2]; exact h3) (by rw [e1]; exact habs) hops S.named hz'

/-- **C112, relaxed loads.** A load of the address of a symbol through the GOT with a REX prefix, of a symbol that the file `x'` defines, is in the output an
instruction that computes the address of the definition into the register of the load. -/
theorem C112_relaxed_load (R : LinkRun env l sched loaded log w w' file secs) (hc : CleanFiles env l) (e : loaded = pre ++ x :: post) {i : Nat} {m n : Name}
    {rel : InReloc} {s : Sym} (hr : Reference x i m rel s) (hn : x.elf.symName s.st_name = some n) (h3 : s.st_info % 16 ≠ 3) (ho : OwnName env l n)
    (h42 : relType rel.rela = 42) {sh0 : SectionHeader} (h0 : x.elf.sectionHeaders[i]? = some sh0)
    (e' : loaded = pre' ++ x' :: post') {j : Nat} {d : Sym} {m' : Name} {sh : SectionHeader} (hd : Definition pre' x' post' j d n)
    (S : SectionOf x' d.st_shndx sh m') (hz : sh.sh_type ≠ 8 ∨ FirstOf pre' x' m' d.st_shndx) :
    ∃ o o' reg slot, sectionsNamed file m = [o] ∧ sectionsNamed file m' = [o'] ∧ 3 ≤ rel.r_offset ∧
      decodeInstr (slice x.data sh0.sh_offset sh0.sh_size) (rel.r_offset - 3) ((o.addr + placeOf pre x m i + rel.r_offset : Nat) - 3) = some (.load reg slot, 7) ∧
      decodeInstr (bodyOf file o) (placeOf pre x m i + rel.r_offset - 3) ((o.addr + placeOf pre x m i + rel.r_offset : Nat) - 3) =
        some (.lea reg ((o'.addr + placeOf pre' x' m' d.st_shndx + d.st_value : Nat) + rel.rela.r_addend + 4), 7) := by
  obtain ⟨y, j', s', sec, n', sh1, hsh1, hra, hm, hj', hn', es⟩ := R.calls.refersIn hc R.good.run.hist e hr
  rw [h0] at hsh1
  cases hsh1
  obtain ⟨_, S0, _⟩ := hr.home
  obtain ⟨o, v, reg, slot, _, _, _, h1, h2, h4, _, _, h5, h6⟩ :=
    R.good.relaxed_in hra S0.named (R.calls.refers hm hn' es hn h3) (R.calls.not_imported ho) h42
  obtain ⟨o', v', h7, h8, h9, _⟩ := C112_symbol R hc e' hd S hz
  rw [h2] at h8
  cases h8
  rw [h9] at h6
  rw [← Nat.add_assoc] at h5 h6
  exact ⟨o, o', reg, slot, h1, h7, h4, h5, h6⟩

/-! ## C113 -/

/-- **C113, calls.** A call in the file `x` of a function that is left to the libraries leads in the output to an entry of `.plt` that is a lazily bound call
of that function. -/
theorem C113_call (R : LinkRun env l sched loaded log w w' file secs) (hc : CleanFiles env l) (e : loaded = pre ++ x :: post) {i : Nat} {m n : Name}
    {rel : InReloc} {s : Sym} (hr : Reference x i m rel s) (hn : x.elf.symName s.st_name = some n) (h3 : s.st_info % 16 ≠ 3) (hl : LibraryName loaded n)
    (h4 : relType rel.rela = 4) :
    ∃ o i' j k, sectionsNamed file m = [o] ∧ PltSlot file i' j k n ∧
      fieldOf file o (placeOf pre x m i + rel.r_offset) 4 =
        (addrNamed file b!".plt" + 16 * (i' + 1) : Nat) + rel.rela.r_addend - (o.addr + (placeOf pre x m i + rel.r_offset) : Nat) := by
  obtain ⟨y, j', s', sec, n', hra, hm, hj', hn', es⟩ := R.calls.refersAt hc R.good.run.hist e hr
  obtain ⟨_, S0, _⟩ := hr.home
  exact C90_call R.good hra S0.named (R.calls.refers hm hn' es hn h3) (R.imported hc hl) h4

/-- **C113, loads.** A load in the file `x`, through the GOT, of the address of a symbol that is left to the libraries leads in the output to a word of `.got`
that one `GLOB_DAT` relocation fills with the address of that symbol. -/
theorem C113_got_load (R : LinkRun env l sched loaded log w w' file secs) (hc : CleanFiles env l) (e : loaded = pre ++ x :: post) {i : Nat} {m n : Name}
    {rel : InReloc} {s : Sym} (hr : Reference x i m rel s) (hn : x.elf.symName s.st_name = some n) (h3 : s.st_info % 16 ≠ 3) (hl : LibraryName loaded n)
    (h4 : relType rel.rela = 41 ∨ relType rel.rela = 42) :
    ∃ o g k, sectionsNamed file m = [o] ∧ g + 8 ≤ (bodyNamed file b!".got").length ∧ dynName file k = some n ∧
      (relasOf (bodyNamed file b!".rela.dyn")).filter (fun r => r.type == 6 && r.offset == addrNamed file b!".got" + g) =
        [⟨addrNamed file b!".got" + g, k, 6, 0⟩] ∧
      fieldOf file o (placeOf pre x m i + rel.r_offset) 4 =
        (addrNamed file b!".got" + g : Nat) + rel.rela.r_addend - (o.addr + (placeOf pre x m i + rel.r_offset) : Nat) := by
  obtain ⟨y, j', s', sec, n', hra, hm, hj', hn', es⟩ := R.calls.refersAt hc R.good.run.hist e hr
  obtain ⟨_, S0, _⟩ := hr.home
  exact C91_got_load R.good hra S0.named (R.calls.refers hm hn' es hn h3) (R.imported hc hl) h4

/-! ## C114 -/

/-- files without hash tables give the writer no section of the types of its own tables -/
theorem LinkRun.plainTypes (R : LinkRun env l sched loaded log w w' file secs) (hh : NoHashSections env l) : PlainTypes (opsOf log) := by
  intro n sh d r hop
  obtain ⟨c, hcm, ec⟩ := List.mem_map.1 hop
  obtain ⟨a, b, e⟩ := List.append_of_mem hcm
  have hj := R.calls.just a c b e
  cases hj with
  | «section» hx hi ht hn hd =>
    cases ec
    obtain ⟨h1, h2⟩ := hh _ _ _ (R.calls.input hx) ⟨List.mem_of_getElem? hi, ht, hn⟩
    refine ⟨fun h => ?_, fun h => ?_, h1, h2⟩ <;> (rw [h] at ht; exact ht (by decide))
  | symbol => cases ec
  | reloc => cases ec
  | dynsym => cases ec
  | needed => cases ec

/-- **C114, start**, what holds: the program starts if the libraries have what the files leave undefined and the linker found in them, zero-fill sections stand behind the sections with
contents, and the places of the copied objects can be written. -/
theorem C114_starts_partial (R : LinkRun env l sched loaded log w w' file secs) (hh : NoHashSections env l) (hz : ZeroFillLast file) {libs : Libs}
    (hl : ∀ p d s n, LibraryHas env l p d n → MentionedIn loaded s n → s.st_shndx = 0 → (s.st_info / 16 = 1 ∨ s.st_info / 16 = 2) → (libs.addr n).isSome = true)
    (hcp : ∀ r ∈ relasOf (bodyNamed file b!".rela.dyn"), r.type = 5 → ∀ y, (symsOf (bodyNamed file b!".dynsym"))[r.sym]? = some y →
      ∀ i, i < y.size → writableAt file (r.offset + i) = true) : ∃ m, started file libs = some m := by
  refine C100_starts_partial R.good (R.plainTypes hh) hz ?_ hcp
  rintro n ⟨a, s, path, d, b, e, _⟩
  obtain ⟨hlib, q, hq, ⟨⟨s', sec, ⟨⟨p', r', hop⟩, h3⟩, h0, hb⟩, _⟩, _⟩ := R.calls.dynsym (s := s) (n := n) (path := path) (r := d) (by rw [e]; simp)
  obtain ⟨c, hcm, ec⟩ := List.mem_map.1 hop
  exact hl path s s' n hlib (R.calls.mention_iff.2 ⟨sec, ⟨p', r', List.mem_map.2 ⟨c, hq.subset hcm, ec⟩⟩, h3⟩) h0 hb

/-- **C114, calls**, what holds: when the program has started, a call in the file `x` of a function that is left to the libraries, or a jump to it, leads
through the PLT to that function. `ins` is the instruction in the output whose last four bytes the relocation fills. -/
theorem C114_call_partial (R : LinkRun env l sched loaded log w w' file secs) (hc : CleanFiles env l) (hh : NoHashSections env l) (hz : ZeroFillLast file)
    {libs : Libs} {mem : Mem} (hm : started file libs = some mem) (e : loaded = pre ++ x :: post) {i : Nat} {m n : Name}
    {rel : InReloc} {s : Sym} (hr : Reference x i m rel s) (hn : x.elf.symName s.st_name = some n) (h3 : s.st_info % 16 ≠ 3) (hl : LibraryName loaded n)
    (h4 : relType rel.rela = 4) (ha : rel.rela.r_addend = -4)
    {k : Nat} {d : ESym} (hd : (symsOf (bodyNamed file b!".dynsym"))[k]? = some d) (hk : dynName file k = some n) (hf : d.info % 16 ≠ 1)
    {o : EShdr} (ho : sectionsNamed file m = [o]) (hal : o.allocated = true) (hw : o.flags.testBit 0 = false) (ht : o.type ≠ 8)
    {p len : Nat} {ins : Instr} {t : Int} (hins : decodeInstr (bodyOf file o) p (o.addr + p : Nat) = some (ins, len))
    (hlen : p + len = placeOf pre x m i + rel.r_offset + 4) (htar : ins.target = some t) :
    instrAt mem (o.addr + p) = some ins ∧ ∃ t' a : Nat, t = t' ∧ JumpsTo mem t' a ∧ libs.addr n = some a := by
  obtain ⟨y, j', s', sec, n', hra, hm', hj', hn', es⟩ := R.calls.refersAt hc R.good.run.hist e hr
  obtain ⟨_, S0, _⟩ := hr.home
  exact C101_call_partial R.good (R.plainTypes hh) hz hm hra S0.named (R.calls.refers hm' hn' es hn h3) (R.imported hc hl) h4 ha hd hk hf ho hal hw ht hins
    hlen htar

/-- **C114, loads**, what holds: when the program has started, a load, call or jump in the file `x` through the GOT of the address of a symbol that is left to
the libraries finds the address of that symbol. -/
theorem C114_got_partial (R : LinkRun env l sched loaded log w w' file secs) (hc : CleanFiles env l) (hh : NoHashSections env l) (hz : ZeroFillLast file)
    {libs : Libs} {mem : Mem} (hm : started file libs = some mem) (e : loaded = pre ++ x :: post) {i : Nat} {m n : Name}
    {rel : InReloc} {s : Sym} (hr : Reference x i m rel s) (hn : x.elf.symName s.st_name = some n) (h3 : s.st_info % 16 ≠ 3) (hl : LibraryName loaded n)
    (h4 : relType rel.rela = 41 ∨ relType rel.rela = 42) (ha : rel.rela.r_addend = -4)
    {g : EShdr} (hg : sectionsNamed file b!".got" = [g]) (hcl : ClearOfCopies file g)
    {o : EShdr} (ho : sectionsNamed file m = [o]) (hal : o.allocated = true) (hw : o.flags.testBit 0 = false) (ht : o.type ≠ 8)
    {p len : Nat} {ins : Instr} {ea : Int} (hins : decodeInstr (bodyOf file o) p (o.addr + p : Nat) = some (ins, len))
    (hlen : p + len = placeOf pre x m i + rel.r_offset + 4) (hop : ins.operand = some ea) :
    instrAt mem (o.addr + p) = some ins ∧ ∃ ea' k d a, ea = (ea' : Nat) ∧ wordAt mem ea' = some a ∧
      (symsOf (bodyNamed file b!".dynsym"))[k]? = some d ∧ dynName file k = some n ∧ (if d.info % 16 = 1 then some d.value else libs.addr n) = some a := by
  obtain ⟨y, j', s', sec, n', hra, hm', hj', hn', es⟩ := R.calls.refersAt hc R.good.run.hist e hr
  obtain ⟨_, S0, _⟩ := hr.home
  exact C102_got_partial R.good (R.plainTypes hh) hz hm hra S0.named (R.calls.refers hm' hn' es hn h3) (R.imported hc hl) h4 ha hg hcl ho hal hw ht hins
    hlen hop

/-- **C114, contents**, what holds: when the program has started, a section of the file `x` that has data is in memory, at its place in the output
section of its name, except where its relocations apply. -/
theorem C114_contents_partial (R : LinkRun env l sched loaded log w w' file secs) (hc : CleanFiles env l) (hh : NoHashSections env l) (hz : ZeroFillLast file)
    {libs : Libs} {mem : Mem} (hm : started file libs = some mem) (e : loaded = pre ++ x :: post) {i : Nat} {sh : SectionHeader} {n : Name}
    (S : SectionOf x i sh n) (h8 : sh.sh_type ≠ 8) {o : EShdr} (ho : sectionsNamed file n = [o]) (hal : o.allocated = true) (ht : o.type ≠ 8)
    (hcl : o.flags.testBit 0 = true → ClearOfCopies file o) {b : Nat} (hb : b < sh.sh_size) (hun : ∀ rel, x.elf.RelocOf i rel → ¬ MayPatch rel.rela b) :
    mem (o.addr + placeOf pre x n i + b) = x.data[sh.sh_offset + b]? := by
  have hx : x ∈ loaded := by rw [e]; simp
  obtain ⟨o', ho', hsz, hbody⟩ := C111_contents R hc e S
  rw [ho] at ho'
  cases ho'
  obtain ⟨hin, hlen, hby⟩ := hbody h8
  have hres : n ∉ reservedNames := by
    obtain ⟨a, b, n', d, r, hl, hn', hd⟩ := R.calls.section_call hx S.header S.copied
    rw [S.name] at hn'
    cases hn'
    exact R.good.good.clean.names n sh d r (List.mem_map.2 ⟨_, by rw [hl]; simp; exact .inr (.inl rfl), rfl⟩)
  have hnn : n ≠ b!".got" ∧ n ≠ b!".got.plt" ∧ n ≠ b!".copyrel" := by
    refine ⟨?_, ?_, ?_⟩ <;> (rintro rfl; exact hres (by decide))
  have h1 := C103_contents_partial R.good (R.plainTypes hh) hz hm (name_of_named ho).1 hal ht (name_of_named ho).2 hnn hcl
  have h2 := hby b hb hun
  obtain ⟨hl, hat⟩ := readMem_iff.1 h1
  have hlt : placeOf pre x n i + b < (bodyOf file o).length := by
    rw [List.getElem?_eq_getElem (show sh.sh_offset + b < x.data.length by omega)] at h2
    exact (List.getElem?_eq_some_iff.1 h2).1
  rw [← h2, Nat.add_assoc, hat _ (by omega)]

/-! ### A concrete link -/

/-- code with a function `g`, and 8 bytes of data -/
def partElf : ElfFile where
  isObjectFile := true
  sectionHeaders := [{}, { demoSh SHT_PROGBITS 6 12 4 with sh_name := 1 }, { demoSh SHT_PROGBITS 3 8 8 with sh_name := 7, sh_offset := 12 }]
  secName := AMap.get? [(0, []), (1, b!".text"), (7, b!".data")]
  syms := [{}, { demoSym STT_FUNC 1 4 8 with st_name := 1 }]
  symName := AMap.get? [(0, []), (1, b!"g")]
  shdrRelocs := []
  dynsyms := []
  dynName := fun _ => none

/-- a program: calls `f` and `g`, loads the addresses of `g` and `f` through the GOT, and takes the address of its data -/
def wholeElf : ElfFile where
  isObjectFile := true
  sectionHeaders :=
    [{}, { demoSh SHT_PROGBITS 6 32 4 with sh_name := 1 }, { demoSh SHT_RELA 0 120 8 with sh_name := 7, sh_info := 1 },
      { demoSh SHT_PROGBITS 3 8 8 with sh_name := 18, sh_offset := 32 }]
  secName := AMap.get? [(0, []), (1, b!".text"), (7, b!".rela.text"), (18, b!".data")]
  syms := [{}, { demoSym STT_FUNC 1 0 32 with st_name := 1 }, { demoSym 0 0 0 0 with st_name := 8 }, { demoSym 0 0 0 0 with st_name := 10 },
    { st_name := 0, st_info := 3, st_shndx := 3 }]
  symName := AMap.get? [(0, []), (1, b!"_start"), (8, b!"f"), (10, b!"g")]
  shdrRelocs := [(2, [⟨1, some (-4), 2, R_X86_64_PLT32⟩, ⟨6, some (-4), 3, R_X86_64_PLT32⟩, ⟨13, some (-4), 3, R_X86_64_REX_GOTPCRELX⟩,
    ⟨20, some (-4), 2, R_X86_64_REX_GOTPCRELX⟩, ⟨27, some (-4), 4, R_X86_64_PC32⟩])]
  dynsyms := []
  dynName := fun _ => none

def partBytes : Bytes := List.replicate 12 0xc3 ++ [1, 2, 3, 4, 5, 6, 7, 8]

def wholeBytes : Bytes := [0xe8, 0, 0, 0, 0, 0xe8, 0, 0, 0, 0, 0x48, 0x8b, 0x05, 0, 0, 0, 0, 0x48, 0x8b, 0x05, 0, 0, 0, 0, 0x48, 0x8d, 0x05, 0, 0, 0, 0, 0xc3,
  11, 12, 13, 14, 15, 16, 17, 18]

/-- both objects and a library with `f` -/
def worldEnv : Env :=
  tableEnv [(Linker.calleePath, partBytes), (mainPath, wholeBytes), (libPath, b!"library")]
    [(partBytes, partElf), (wholeBytes, wholeElf), (b!"library", libElf)] []

def worldLinker : Linker :=
  { options := { Options.default with sharedLibs := [(libPath, false)] }, objects := [Linker.calleePath, mainPath], archives := [] }

theorem world_clean : CleanFiles worldEnv worldLinker := CleanFiles.of_table (by decide +kernel)

def partFile : Loaded := ⟨.object 0, Linker.calleePath, partBytes, partElf⟩
def wholeFile : Loaded := ⟨.object 1, mainPath, wholeBytes, wholeElf⟩

theorem world_objects : objectsOf worldEnv worldLinker = [partFile, wholeFile] := rfl

theorem world_hashes : NoHashSections worldEnv worldLinker := by
  intro e sh n he hc
  have h1 := hc.1
  have h2 := he.of_table
  simp only [List.map_cons, List.map_nil, List.mem_cons, List.not_mem_nil, or_false] at h2
  have key : ∀ e ∈ [partElf, wholeElf, libElf], ∀ sh ∈ e.sectionHeaders, sh.sh_type ≠ 5 ∧ sh.sh_type ≠ 0x6ffffff6 := by decide +kernel
  exact key e (by simpa using h2) sh h1

/-- the relocation numbers of the code of the program and the symbols they refer to -/
theorem world_references : ∀ (rel : InReloc) (s : Sym), wholeElf.RelocOf 1 rel → wholeElf.syms[rel.r_sym]? = some s →
    Reference wholeFile 1 b!".text" rel s :=
  fun rel s h hs => ⟨⟨_, ⟨rfl, by decide, rfl, by decide⟩, by decide⟩, h, by unfold ElfFile.RelocsApart; decide +kernel, hs⟩

theorem world_symbols {y : Loaded} (hy : y ∈ [partFile, wholeFile]) {n : Name} (hn : n ≠ []) {j : Nat} {s : Sym} (h : SymbolOf y j s n) :
    (y = partFile ∧ n = b!"g" ∧ j = 1 ∧ s = { demoSym STT_FUNC 1 4 8 with st_name := 1 }) ∨
      (y = wholeFile ∧ ((n = b!"_start" ∧ s.st_shndx = 1) ∨ (s.st_shndx = 0 ∧ s.st_info / 16 = 1 ∧ ((n = b!"f" ∧ j = 2) ∨ (n = b!"g" ∧ j = 3))))) := by
  obtain ⟨h1, h2, h3⟩ := h
  simp only [List.mem_cons, List.not_mem_nil, or_false] at hy
  rcases hy with rfl | rfl
  · left
    match j, h1 with
    | 0, h1 => cases h1; cases h2; exact absurd rfl hn
    | 1, h1 => cases h1; cases h2; exact ⟨rfl, rfl, rfl, rfl⟩
    | j + 2, h1 => cases h1
  · right
    refine ⟨rfl, ?_⟩
    match j, h1 with
    | 0, h1 => cases h1; cases h2; exact absurd rfl hn
    | 1, h1 => cases h1; cases h2; exact .inl ⟨rfl, rfl⟩
    | 2, h1 => cases h1; cases h2; exact .inr ⟨rfl, rfl, .inl ⟨rfl, rfl⟩⟩
    | 3, h1 => cases h1; cases h2; exact .inr ⟨rfl, rfl, .inr ⟨rfl, rfl⟩⟩
    | 4, h1 => cases h1; exact absurd rfl h3
    | j + 5, h1 => cases h1

/-- `f` is left to the library -/
theorem world_library : LibraryName [partFile, wholeFile] b!"f" := by
  refine ⟨by decide, by decide, ?_, ?_⟩
  · exact ⟨_, wholeFile, by simp, List.mem_of_getElem? (i := 2) rfl, rfl, by decide⟩
  · rintro s ⟨x, hx, hs, hn, h3⟩
    obtain ⟨j, hj⟩ := List.getElem?_of_mem hs
    rcases world_symbols hx (by decide) ⟨hj, hn, h3⟩ with ⟨rfl, h, _⟩ | ⟨rfl, ⟨h, _⟩ | ⟨h, h1, _⟩⟩
    · exact absurd h (by decide)
    · exact absurd h (by decide)
    · exact ⟨h, .inl h1⟩

/-- `g` is defined by the first file -/
theorem world_definition : Definition [] partFile [wholeFile] 1 { demoSym STT_FUNC 1 4 8 with st_name := 1 } b!"g" := by
  refine ⟨by decide, by decide, ⟨rfl, rfl, by decide⟩, by decide, by decide, ?_, .inr ⟨?_, ?_, ?_⟩⟩
  · intro y hy j' s' h h0
    rcases world_symbols hy (by decide) h with ⟨rfl, _, rfl, _⟩ | ⟨rfl, ⟨h, _⟩ | ⟨h, _⟩⟩
    · exact ⟨rfl, rfl⟩
    · exact absurd h (by decide)
    · exact absurd h h0
  · intro y hy j' s' h
    rcases world_symbols hy (by decide) h with ⟨rfl, _, rfl, rfl⟩ | ⟨rfl, ⟨h, _⟩ | ⟨h, h1, _⟩⟩
    · decide
    · exact absurd h (by decide)
    · refine ⟨by omega, ?_⟩
      have : Spec.bindRank s' = 2 := by unfold Spec.bindRank; rw [if_pos h1]
      rw [this]
      decide
  · intro y hy; cases hy
  · intro j' s' h hj
    rcases world_symbols (.head _) (by decide) h with ⟨_, _, rfl, rfl⟩ | ⟨h, _⟩
    · omega
    · cases h

theorem world_links : links worldEnv worldLinker LinkSched.id 5 (fun w w' f s => zeroLast s && (match secsNamed w s b!".text", secsNamed w s b!".got" with
      | [o], [g] => o.allocated && !o.flags.testBit 0 && o.type != 8 &&
        (match decodeInstr (bodyOf f o) 12 (o.addr + 12 : Nat) with
          | some (.call _, 5) => true
          | _ => false) &&
        decide (decodeInstr (bodyOf f o) 29 (o.addr + 29 : Nat) = some (.load 0 (g.addr + 16 : Nat), 7))
      | _, _ => false) && ((relasOf (bodyNamed f b!".rela.dyn")).all (fun r => r.type == 6) &&
    decide (dynName f 1 = some b!"f") && ((symsOf (bodyNamed f b!".dynsym"))[1]?).any fun (d : ESym) => d.info % 16 != 1)) = true := by decide +kernel

/-- what is known about the output -/
structure World (log : List Call) (w w' : Writer) (f : Bytes) (s : List Section) (o g : EShdr) : Prop where
  run : LinkRun worldEnv worldLinker LinkSched.id ([] ++ partFile :: [wholeFile]) log w w' f s
  zero : ZeroFillLast f
  text : sectionsNamed f b!".text" = [o]
  got : sectionsNamed f b!".got" = [g]
  alloc : o.allocated = true
  fixed : o.flags.testBit 0 = false
  bits : o.type ≠ 8
  call : ∃ t, decodeInstr (bodyOf f o) 12 (o.addr + 12 : Nat) = some (.call t, 5)
  load : decodeInstr (bodyOf f o) 29 (o.addr + 29 : Nat) = some (.load 0 (g.addr + 16 : Nat), 7)
  copies : ∀ r ∈ relasOf (bodyNamed f b!".rela.dyn"), r.type ≠ 5
  dyn : dynName f 1 = some b!"f" ∧ ∃ d, (symsOf (bodyNamed f b!".dynsym"))[1]? = some d ∧ d.info % 16 ≠ 1

theorem world_run : ∃ log w w' f s o g, Linker.link worldEnv worldLinker LinkSched.id 5 = some (.ok f) ∧ World log w w' f s o g := by
  obtain ⟨log, loaded, w, w', f, s, h1, h2, h3, hp⟩ := LinkRun.of_links LinkSched.id_valid world_clean world_links
  have e := Linker.loaded_objects h3.calls rfl
  subst e
  rw [Bool.and_eq_true, Bool.and_eq_true, Bool.and_eq_true, Bool.and_eq_true, List.all_eq_true, decide_eq_true_eq, Option.any_eq_true] at hp
  obtain ⟨⟨hz, hm⟩, ⟨hd, hk⟩, d, hd1, hd2⟩ := hp
  simp only [h3.good.toGoodRun.secsNamed_eq] at hm
  split at hm
  · next o g ho hg =>
    simp only [Bool.and_eq_true, decide_eq_true_eq, Bool.not_eq_true', bne_iff_ne] at hm
    obtain ⟨⟨⟨⟨k1, k2⟩, k3⟩, k4⟩, k5⟩ := hm
    refine ⟨log, w, w', f, s, o, g, h1, h3, h3.good.toGoodRun.zeroFillLast hz, ho, hg, k1, k2, k3, ?_, k5, ?_, hk, d, hd1, by simpa using hd2⟩
    · split at k4
      · next t he => exact ⟨t, he⟩
      · cases k4
    · intro r hr h5
      have := eq_of_beq (hd r hr); omega
  · cases hm

/-- `g` is the program's own -/
theorem world_own : OwnName worldEnv worldLinker b!"g" :=
  .inr ⟨partFile, .head _, _, List.mem_of_getElem? (i := 1) rfl, rfl, by decide, by decide, by decide⟩

theorem world_patched : ∀ (i b : Nat), (i, b) ∈ [(1, 31), (3, 2)] → ∀ rel, wholeElf.RelocOf i rel → ¬ MayPatch rel.rela b := by
  rintro i b hib rel ⟨_, k, j, hm⟩
  have key : ∀ e ∈ [(1, 31), (3, 2)], ∀ r ∈ wholeElf.relocs, r.2.1 = e.1 + 1 → ¬ MayPatch r.2.2.2.rela e.2 := by decide +kernel
  exact key _ hib _ hm rfl

/-- `C111_contents`: the code of the second file is 12 bytes into `.text` of the output, which has 44 bytes; its data is 8 bytes into `.data`. -/
example : ∃ log w w' f s o g, World log w w' f s o g ∧ o.size = 44 ∧ (bodyOf f o)[12 + 31]? = some 0xc3 ∧
    ∃ d, sectionsNamed f b!".data" = [d] ∧ d.size = 16 ∧ (bodyOf f d)[8 + 2]? = some 13 := by
  obtain ⟨log, w, w', f, s, o, g, _, W⟩ := world_run
  obtain ⟨o', h1, h2, h3⟩ := C111_contents W.run world_clean (pre := [partFile]) (x := wholeFile) (post := []) rfl (i := 1) (n := b!".text")
    ⟨rfl, by decide, rfl, by decide⟩
  rw [W.text] at h1
  cases h1
  obtain ⟨d, k1, k2, k3⟩ := C111_contents W.run world_clean (pre := [partFile]) (x := wholeFile) (post := []) rfl (i := 3) (n := b!".data")
    ⟨rfl, by decide, rfl, by decide⟩
  refine ⟨log, w, w', f, s, o, g, W, h2, (h3 (by decide)).2.2 31 (by decide) ?_, d, k1, k2, (k3 (by decide)).2.2 2 (by decide) ?_⟩
  · exact world_patched 1 31 (by decide)
  · exact world_patched 3 2 (by decide)

/-- `C112_symbol`, `C112_reference`, `C112_section`, `C112_relaxed_load`: the call and the load of `g` lead to the place of `g`, 4 bytes into `.text`. The address
of the data of the second file is 8 bytes into `.data`. -/
example : ∃ log w w' f s o g, World log w w' f s o g ∧ (∃ y, symbolsNamed f b!"g" = [y] ∧ y.value = o.addr + 0 + 4) ∧
    Reaches f o (12 + 6) ⟨6, 2 ^ 32 * 3 + 4, -4⟩ (o.addr + 0 + 4) ∧
    (∃ d, sectionsNamed f b!".data" = [d] ∧ Reaches f o (12 + 27) ⟨27, 2 ^ 32 * 4 + 2, -4⟩ (d.addr + 8)) ∧
    ∃ reg, decodeInstr (bodyOf f o) (12 + 13 - 3) ((o.addr + 12 + 13 : Nat) - 3) = some (.lea reg ((o.addr + 0 + 4 : Nat) + -4 + 4), 7) := by
  obtain ⟨log, w, w', f, s, o, g, _, W⟩ := world_run
  have S : SectionOf partFile 1 { demoSh SHT_PROGBITS 6 12 4 with sh_name := 1 } b!".text" := ⟨rfl, by decide, rfl, by decide⟩
  obtain ⟨o1, y, a1, a2, a3, _⟩ := C112_symbol W.run world_clean rfl world_definition S (.inl (by decide))
  rw [W.text] at a1
  cases a1
  obtain ⟨o1, o2, b1, b2, b3⟩ := C112_reference W.run world_clean (pre := [partFile]) (post := []) rfl
    (world_references ⟨6, some (-4), 3, R_X86_64_PLT32⟩ _ ⟨by decide, 0, 1, by decide⟩ rfl) (n := b!"g") rfl (by decide) world_own rfl world_definition S
    (.inl (by decide))
  rw [W.text] at b1 b2
  cases b1
  cases b2
  obtain ⟨o1, d, c1, c2, c3⟩ := C112_section W.run world_clean (pre := [partFile]) (post := []) rfl
    (world_references ⟨27, some (-4), 4, R_X86_64_PC32⟩ _ ⟨by decide, 0, 4, by decide⟩ rfl) (by decide) (by decide) (m' := b!".data")
    ⟨rfl, by decide, rfl, by decide⟩ (.inl (by decide))
  rw [W.text] at c1
  cases c1
  obtain ⟨o1, o2, reg, slot, d1, d2, _, _, d3⟩ := C112_relaxed_load W.run world_clean (pre := [partFile]) (post := []) rfl
    (world_references ⟨13, some (-4), 3, R_X86_64_REX_GOTPCRELX⟩ _ ⟨by decide, 0, 2, by decide⟩ rfl) (n := b!"g") rfl (by decide) world_own (by decide) rfl
    rfl world_definition S (.inl (by decide))
  rw [W.text] at d1 d2
  cases d1
  cases d2
  exact ⟨log, w, w', f, s, o, g, W, ⟨y, a2, a3⟩, b3, ⟨d, c2, c3⟩, reg, d3⟩

/-- `C113_call`, `C113_got_load`: the call of `f` leads to the PLT, the load of its address to the GOT -/
example : ∃ log w w' f s o g, World log w w' f s o g ∧
    (∃ i j k, PltSlot f i j k b!"f" ∧ fieldOf f o (12 + 1) 4 = (addrNamed f b!".plt" + 16 * (i + 1) : Nat) + -4 - (o.addr + (12 + 1) : Nat)) ∧
    ∃ g k, dynName f k = some b!"f" ∧ (relasOf (bodyNamed f b!".rela.dyn")).filter (fun r => r.type == 6 && r.offset == addrNamed f b!".got" + g) =
        [⟨addrNamed f b!".got" + g, k, 6, 0⟩] ∧ fieldOf f o (12 + 20) 4 = (addrNamed f b!".got" + g : Nat) + -4 - (o.addr + (12 + 20) : Nat) := by
  obtain ⟨log, w, w', f, s, o, g, _, W⟩ := world_run
  obtain ⟨o1, i, j, k, a1, a2, a3⟩ := C113_call W.run world_clean (pre := [partFile]) (post := []) rfl
    (world_references ⟨1, some (-4), 2, R_X86_64_PLT32⟩ _ ⟨by decide, 0, 0, by decide⟩ rfl) (n := b!"f") rfl (by decide) world_library (by decide)
  rw [W.text] at a1
  cases a1
  obtain ⟨o1, c, k', b1, _, b2, b3, b4⟩ := C113_got_load W.run world_clean (pre := [partFile]) (post := []) rfl
    (world_references ⟨20, some (-4), 2, R_X86_64_REX_GOTPCRELX⟩ _ ⟨by decide, 0, 3, by decide⟩ rfl) (n := b!"f") rfl (by decide) world_library (by decide)
  rw [W.text] at b1
  cases b1
  exact ⟨log, w, w', f, s, o, g, W, ⟨i, j, k, a2, a3⟩, c, k', b2, b3, b4⟩

/-- `C114_starts_partial`, `C114_call_partial`, `C114_got_partial`, `C114_contents_partial`: the program starts if the library has `f`, and its call leads to `f`; the load finds the address of
`f`; the code of the second file is in memory. -/
example : ∃ log w w' f s o g, World log w w' f s o g ∧ ∀ libs : Libs, (libs.addr b!"f").isSome = true → ∃ m t a, started f libs = some m ∧
    instrAt m (o.addr + 12) = some (.call (t : Nat)) ∧ JumpsTo m t a ∧ instrAt m (o.addr + 29) = some (.load 0 (g.addr + 16 : Nat)) ∧
    wordAt m (g.addr + 16) = some a ∧ libs.addr b!"f" = some a ∧ m (o.addr + 12 + 31) = some 0xc3 := by
  obtain ⟨log, w, w', f, s, o, g, _, W⟩ := world_run
  refine ⟨log, w, w', f, s, o, g, W, fun libs hlib => ?_⟩
  obtain ⟨m, hm⟩ := C114_starts_partial W.run world_hashes W.zero (libs := libs) (by
    rintro p s s' n ⟨h1, data, e, h2, h3, h4, h5⟩ hu h0 hb
    cases List.mem_singleton.1 h1
    cases (show some b!"library" = some data from h2)
    cases (show some libElf = some e from h3)
    have h := AMap.mem_of_get? (show AMap.get? [(0, []), (1, b!"f")] s.st_name = some n from h5)
    simp only [List.mem_cons, Prod.mk.injEq, List.not_mem_nil, or_false] at h
    simp only [libElf, List.mem_cons, List.not_mem_nil, or_false] at h4
    rcases h4 with rfl | rfl
    · rcases h with ⟨_, rfl⟩ | ⟨h, _⟩
      · obtain ⟨x, hx, hs, hn, h3⟩ := hu
        have key : ∀ x ∈ [partFile, wholeFile], ∀ s ∈ x.elf.syms, x.elf.symName s.st_name = some [] → s.st_shndx = 0 →
          ¬ (s.st_info / 16 = 1 ∨ s.st_info / 16 = 2) := by decide +kernel
        exact absurd hb (key x hx s' hs hn h0)
      · exact absurd h (by decide)
    · rcases h with ⟨h, _⟩ | ⟨_, rfl⟩
      · exact absurd h (by decide)
      · exact hlib) (fun r hr h5 => absurd h5 (W.copies r hr))
  obtain ⟨hk, d, hd1, hd2⟩ := W.dyn
  obtain ⟨t, ht⟩ := W.call
  obtain ⟨c1, t', a, rfl, c2, c3⟩ := C114_call_partial W.run world_clean world_hashes W.zero hm (pre := [partFile]) (post := []) rfl
    (world_references ⟨1, some (-4), 2, R_X86_64_PLT32⟩ _ ⟨by decide, 0, 0, by decide⟩ rfl) (n := b!"f") rfl (by decide) world_library (by decide) rfl
    hd1 hk hd2 W.text W.alloc W.fixed W.bits ht rfl rfl
  obtain ⟨e1, ea, k, d', a', e2, e3, e4, e5, e6⟩ := C114_got_partial W.run world_clean world_hashes W.zero hm (pre := [partFile]) (post := []) rfl
    (world_references ⟨20, some (-4), 2, R_X86_64_REX_GOTPCRELX⟩ _ ⟨by decide, 0, 3, by decide⟩ rfl) (n := b!"f") rfl (by decide) world_library (by decide) rfl
    W.got (fun r hr h5 => absurd h5 (W.copies r hr)) W.text W.alloc W.fixed W.bits W.load rfl rfl
  have hkk := W.run.good.dynName_inj hk e5
  subst hkk
  rw [hd1] at e4
  cases e4
  rw [if_neg hd2, c3] at e6
  cases e6
  have e2 : g.addr + 16 = ea := by omega
  subst e2
  exact ⟨m, t', a, hm, c1, c2, e1, e3, c3, C114_contents_partial W.run world_clean world_hashes W.zero hm (pre := [partFile]) (x := wholeFile) (post := []) rfl (i := 1)
    ⟨rfl, by decide, rfl, by decide⟩ (by decide) W.text W.alloc W.bits (by rw [W.fixed]; intro h; cases h) (b := 31) (by decide) (world_patched 1 31 (by decide))⟩

end Dld
