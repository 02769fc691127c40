import Verif.Spec.File
import Verif.Lemmas.Own
import Verif.Props.Serialize
import Verif.Props.StringTable
/-! # Reading the output file -/
namespace Dld
open Writer Spec

/-- every number of the file headers fits the field it is stored in -/
structure NumbersFit (w' : Writer) (file : Bytes) (secs : List Section) : Prop where
  entry : w'.eh.e_entry < 2 ^ 64
  file : file.length < 2 ^ 64
  count : secs.length < 65536
  segCount : w'.programHeaders.length < 65536
  secs : ∀ s ∈ secs, s.sh.Fits
  segs : ∀ p ∈ w'.programHeaders, p.Fits

theorem serVec_drop {α : Type} {f : α → Bytes} {k : Nat} (hk : ∀ a, (f a).length = k) {l : List α} {i : Nat} {a : α}
    (h : l[i]? = some a) (pre post : Bytes) :
    (pre ++ serVec f l ++ post).drop (pre.length + k * i) = f a ++ (serVec f (l.drop (i + 1)) ++ post) := by
  rw [List.append_assoc, ← List.drop_drop, List.drop_left]
  induction l generalizing i with
  | nil => cases h
  | cons b l ih =>
    cases i with
    | zero =>
      simp only [List.getElem?_cons_zero, Option.some.injEq] at h
      subst h; simp [serVec]
    | succ i =>
      simp only [List.getElem?_cons_succ] at h
      have := ih h
      rw [show k * (i + 1) = (f b).length + k * i by rw [hk, Nat.mul_add]; omega]
      rw [← List.drop_drop]
      have e : (serVec f (b :: l) ++ post).drop (f b).length = serVec f l ++ post := by
        simp [serVec, List.append_assoc]
      rw [e, this]; rfl

theorem range_map_decode {α β : Type} {l : List α} {g : α → β} {d : Nat → β} (h : ∀ i a, l[i]? = some a → d i = g a) :
    (List.range l.length).map d = l.map g := by
  apply List.ext_getElem?
  intro i
  simp only [List.getElem?_map]
  by_cases hi : i < l.length
  · rw [List.getElem?_range hi, List.getElem?_eq_getElem hi]
    simp [h i _ (List.getElem?_eq_getElem hi)]
  · rw [List.getElem?_eq_none (by simp; omega), List.getElem?_eq_none (by omega)]; rfl

variable {opts : Options} {ops : List Op} {sched : Sched} {w w' : Writer} {file : Bytes} {secs : List Section}

theorem length_serHeader {h : Header} (hi : h.e_ident.length = 16) : (serHeader h).length = 64 := by
  simp [serHeader, hi]

theorem toSpec_fileSize (s : Section) : s.sh.toSpec.fileSize = s.sizeOnDisk := by
  unfold EShdr.fileSize Section.sizeOnDisk
  show (if s.sh.sh_type = 8 then 0 else s.sh.sh_size) = _
  by_cases h : s.sh.sh_type = 8 <;> simp [h, SHT_NOBITS]

theorem Run.shstrndx (h : Run opts ops sched w w' file secs) (hf : FlagsOk ops) :
    ∃ i t, secs[i]? = some t ∧ t.ptr = P.shstr ∧ w'.eh.e_shstrndx = u16 i := by
  have hlen := h.secs_length
  obtain ⟨hdr, lst, hl⟩ := h.laid hf
  obtain ⟨st, rfl⟩ := h.stages
  obtain ⟨entry, s, ph, phs, h1, _, _, _, _, h2⟩ := finishHeader_ok st.hfinal
  have hsec : st.final.sections = st.tables.sections := by rw [h2]
  obtain ⟨hm, hp⟩ := sec_ok h1
  rw [← hsec] at hm
  obtain ⟨i, hi, e⟩ := List.getElem_of_mem hm
  have hi' : st.final.sections[i]? = some s := by rw [List.getElem?_eq_getElem hi, e]
  have hil : i < secs.length := by omega
  refine ⟨i, secs[i], List.getElem?_eq_getElem hil, ?_, ?_⟩
  · obtain ⟨s', hs', hf, _⟩ := h.finalized (List.getElem?_eq_getElem hil)
    rw [hi'] at hs'; cases hs'
    rw [hf.ptr, hp]
  · rw [h2, ← hl.index i s hi']

/-- what reading the output file gives -/
structure Reads (w' : Writer) (file : Bytes) (secs : List Section) : Prop where
  ehdr : decodeEhdr file =
    { ident := [0x7f, 0x45, 0x4c, 0x46, 2, 1, 1, 0, 0, 0, 0, 0, 0, 0, 0, 0], type := 2, machine := 62, version := 1
      entry := w'.eh.e_entry, phoff := 64, shoff := w'.eh.e_shoff, flags := 0, ehsize := 64, phentsize := 56
      phnum := w'.programHeaders.length, shentsize := 64, shnum := secs.length, shstrndx := w'.eh.e_shstrndx }
  shdrs : shdrs file = secs.map fun s => s.sh.toSpec
  phdrs : phdrs file = w'.programHeaders.map fun p => p.toSpec
  body : ∀ s ∈ secs, bodyOf file s.sh.toSpec = contents s
  length : file.length = w'.eh.e_shoff + 64 * secs.length

theorem Run.reads (h : Run opts ops sched w w' file secs) (hg : GoodInputs ops) (hn : NamesFit w)
    (hf : NumbersFit w' file secs) : Reads w' file secs := by
  have him := h.image hg.flags hg.dynamic hg.clean hn
  obtain ⟨hdr, st, hl⟩ := h.laid hg.flags
  obtain ⟨post, e1⟩ := him.head
  obtain ⟨pre, e2, e3⟩ := him.tab
  have heh := hl.eh
  have hident : w'.eh.e_ident = initHeader.e_ident := by rw [heh]
  have hil : w'.eh.e_ident.length = 16 := by rw [hident]; rfl
  have hser : (serHeader w'.eh).length = 64 := length_serHeader hil
  have hph : w'.eh.e_phnum = w'.programHeaders.length := by
    rw [hl.phnum]; exact Nat.mod_eq_of_lt hf.segCount
  have hsh : w'.eh.e_shnum = secs.length := by
    rw [hl.shnum, ← h.secs_length]
    exact Nat.mod_eq_of_lt hf.count
  have htab : (serVec (fun s : Section => serSectionHeader s.sh) secs).length = secs.length * 64 :=
    length_flatMap_const (f := fun s : Section => serSectionHeader s.sh) (k := 64) (fun s => length_serSectionHeader s.sh) secs
  have hlen : file.length = w'.eh.e_shoff + 64 * secs.length := by
    have := congrArg List.length e2
    rw [List.length_append, e3, htab] at this
    omega
  have hshoff : w'.eh.e_shoff < 256 ^ 8 := by
    have := hf.file
    rw [show (256 : Nat) ^ 8 = 2 ^ 64 by decide]
    omega
  have hfits : w'.eh.Fits := by
    refine ⟨hil, ?_, ?_, ?_, by rw [show (256 : Nat) ^ 8 = 2 ^ 64 by decide]; exact hf.entry, ?_, hshoff, ?_, ?_, ?_, ?_, ?_, ?_, ?_⟩
    · rw [heh]; show initHeader.e_type < _; decide
    · rw [heh]; show initHeader.e_machine < _; decide
    · rw [heh]; show initHeader.e_version < _; decide
    · rw [heh]; show initHeader.e_phoff < _; decide
    · rw [heh]; show initHeader.e_flags < _; decide
    · rw [heh]; show initHeader.e_ehsize < _; decide
    · rw [heh]; show initHeader.e_phentsize < _; decide
    · rw [hl.phnum]; exact Nat.mod_lt _ (by decide)
    · rw [heh]; show initHeader.e_shentsize < _; decide
    · rw [hl.shnum]; exact Nat.mod_lt _ (by decide)
    · obtain ⟨i, _, _, _, e⟩ := h.shstrndx hg.flags
      rw [e]; exact Nat.mod_lt _ (by decide)
  have hed : decodeEhdr file =
    { ident := [0x7f, 0x45, 0x4c, 0x46, 2, 1, 1, 0, 0, 0, 0, 0, 0, 0, 0, 0], type := 2, machine := 62, version := 1
      entry := w'.eh.e_entry, phoff := 64, shoff := w'.eh.e_shoff, flags := 0, ehsize := 64, phentsize := 56
      phnum := w'.programHeaders.length, shentsize := 64, shnum := secs.length, shstrndx := w'.eh.e_shstrndx } := by
    rw [e1, List.append_assoc, (C46_header_roundtrip w'.eh _ hfits).2, hph, hsh, hident]
    rw [heh]; rfl
  refine ⟨hed, ?_, ?_, ?_, hlen⟩
  · unfold Spec.shdrs
    rw [hed]
    refine range_map_decode fun i a ha => ?_
    rw [decodeShdr_drop, e2, ← e3, ← List.append_nil (pre ++ _)]
    rw [serVec_drop (f := fun s : Section => serSectionHeader s.sh) (k := 64) (fun s => length_serSectionHeader s.sh) ha pre []]
    exact decodeShdr_ser _ (hf.secs a (List.mem_of_getElem? ha)) _
  · unfold Spec.phdrs
    rw [hed]
    refine range_map_decode fun i a ha => ?_
    rw [decodePhdr_drop, e1, ← hser]
    rw [serVec_drop (f := serProgramHeader) (k := 56) length_serProgramHeader ha (serHeader w'.eh) post]
    exact decodePhdr_ser _ (hf.segs a (List.mem_of_getElem? ha)) _
  · intro s hs
    obtain ⟨i, hi, rfl⟩ := List.getElem_of_mem hs
    have hi' := List.getElem?_eq_getElem hi
    obtain ⟨pre, post, e4, e5, _⟩ := him.sec i _ hi'
    have hcl := h.contents_length hg.clean hi'
    unfold bodyOf
    rw [toSpec_fileSize]
    rcases e5 with e5 | e5
    · rw [e4]; exact slice_mid e5 hcl
    · rw [e5] at hcl ⊢
      rw [List.eq_nil_of_length_eq_zero hcl]; simp [slice]

/-! ### Names -/

theorem Holds.cstr {t : StringTable} {ns : List Name} (h : StringTable.Holds t ns) {n : Name} (hn : n ∈ ns) (hz : (0 : UInt8) ∉ n) :
    cstrAt t.chunk (nameOff ns n) = some n := by
  unfold StringTable.chunk StringTable.chunkIn
  rw [h.names, StringTable.sortedNamesIn_perm (.refl _), StringTable.flatMap_lay]
  exact StringTable.cstrAt_flatMap n hn hz

/-- the sections as written, and the sections of the writer -/
theorem Run.tags_perm (h : Run opts ops sched w w' file secs) (hf : FlagsOk ops) :
    (secs.map tag).Perm (w.sections.map tag) := by
  obtain ⟨hdr, st, hl⟩ := h.laid hf
  have h1 : secs.map tag = w'.sections.map tag := by
    apply List.ext_getElem?
    intro i
    simp only [List.getElem?_map]
    cases ht : secs[i]? with
    | none =>
      have := h.secs_length
      rw [List.getElem?_eq_none_iff] at ht
      rw [List.getElem?_eq_none (by omega)]
    | some t =>
      obtain ⟨s, hs, hf, _⟩ := h.finalized ht
      rw [hs]
      simp only [Option.map_some, Option.some.injEq]
      unfold tag
      rw [hf.ptr, hf.link, hf.kind, hf.name, hf.type, hf.flags, hf.align]
      rw [show t.sh.sh_entsize = s.sh.sh_entsize by rw [hf.sh]]
  rw [h1, ← List.take_append_drop 1 w'.sections, ← List.take_append_drop 1 w.sections, List.map_append, List.map_append, hl.tags.1]
  exact hl.tags.2.append_left _

theorem Run.ptrs_nodup (h : Run opts ops sched w w' file secs) (hf : FlagsOk ops) : (secs.map (·.ptr)).Nodup := by
  have h1 := (h.tags_perm hf).map (·.1)
  rw [List.map_map, List.map_map] at h1
  exact h1.nodup_iff.2 h.hist.secFacts.nodup

/-- the section of the writer a written section comes from -/
theorem Run.origin (h : Run opts ops sched w w' file secs) (hf : FlagsOk ops) {t : Section} (ht : t ∈ secs) :
    ∃ s ∈ w.sections, tag t = tag s := by
  have := (h.tags_perm hf).mem_iff.1 (List.mem_map_of_mem ht)
  obtain ⟨s, hs, e⟩ := List.mem_map.1 this
  exact ⟨s, hs, e.symm⟩

theorem Run.written (h : Run opts ops sched w w' file secs) (hf : FlagsOk ops) {s : Section} (hs : s ∈ w.sections) :
    ∃ t ∈ secs, tag t = tag s := by
  have := (h.tags_perm hf).mem_iff.2 (List.mem_map_of_mem hs)
  obtain ⟨t, ht, e⟩ := List.mem_map.1 this
  exact ⟨t, ht, e⟩

theorem Known.of_tag {hs : HashStyle} {s t : Section} (hk : Known hs ops s) (h : tag t = tag s) : Known hs ops t := by
  simp only [tag, Prod.mk.injEq] at h
  obtain ⟨h1, h2, h3, h4, h5, h6, h7, h8⟩ := h
  unfold Known Section.origin at *
  rw [h1, h2, h3, h5, h6, h8]; exact hk

theorem Run.known (h : Run opts ops sched w w' file secs) (hf : FlagsOk ops) {t : Section} (ht : t ∈ secs) :
    Known opts.hashStyle ops t := by
  obtain ⟨s, hs, e⟩ := h.origin hf ht
  exact (h.hist.secFacts.known s hs).of_tag e

/-- an own section is in the file exactly once -/
theorem Run.own_one (h : Run opts ops sched w w' file secs) (hf : FlagsOk ops) {p : Nat} (hp : p ∈ (baseIdents opts.hashStyle).map (·.1)) :
    ∃ t ∈ secs, t.ptr = p ∧ ∀ u ∈ secs, u.ptr = p → u = t := by
  obtain ⟨s, hs, e⟩ := h.hist.secFacts.has p hp
  obtain ⟨t, ht, et⟩ := h.written hf hs
  have hpt : t.ptr = p := by rw [← e]; exact congrArg (·.1) et
  refine ⟨t, ht, hpt, fun u hu hup => ?_⟩
  exact eq_of_ptr (h.ptrs_nodup hf) hu ht (by rw [hup, hpt])

/-- the bytes of an own section -/
def ownBytes (st : Stages sched w) (p : Nat) : Bytes :=
  if p = P.shstr then w.shstr.chunk
  else if p = P.symstr then w.symstr.chunk
  else if p = P.dynstr then w.dynstr.chunk
  else if p = P.sym then st.final.symtab.chunk sched.symIter
  else if p = P.dynsym then st.final.dynsym.chunk sched.dynIter
  else if p = P.dynamic then serVec serDyn st.final.dynEntries
  else if p = P.relaDyn then serVec serRela st.final.dynRels
  else if p = P.relaPlt then serVec serRela st.final.pltRels
  else if p = P.hash then serHashTable st.filled.hashTab
  else if p = P.gnuHash then serGnuHashTable st.filled.gnuTab
  else if p = P.got then List.replicate (8 * st.scanned.gotLen) 0
  else []

theorem ownData_bytes (st : Stages sched w) : ∀ p, p < P.first → p ≠ P.plt → p ≠ P.gotPlt → (ownData st p).flatten = ownBytes st p := by
  obtain ⟨f1, f2, f3, f4, f5, f6, f7, f8, f9⟩ := st.final_tables
  obtain ⟨_, _, _, r4, r5, r6, _⟩ := st.final_post
  obtain ⟨g1, g2, g3, _⟩ := st.sorted_rest
  obtain ⟨_, _, t3⟩ := computeTables_ok st.htables
  obtain ⟨_, _, _, _, _, _, _, _, _, t4⟩ := finishHeader_ok st.hfinal
  have k1 : st.relocated.shstr = w.shstr := by
    have : st.final.shstr = st.relocated.shstr := by rw [t4, t3]
    rw [← this, r4, g1]
  have k2 : st.relocated.symstr = w.symstr := by
    have : st.final.symstr = st.relocated.symstr := by rw [t4, t3]
    rw [← this, r5, g2]
  have k3 : st.relocated.dynstr = w.dynstr := by
    have : st.final.dynstr = st.relocated.dynstr := by rw [t4, t3]
    rw [← this, r6, g3]
  have k4 : st.relocated.dynEntries = st.final.dynEntries := by rw [f7, f9]
  intro p hp h1 h2
  have hc : p = 0 ∨ p = 1 ∨ p = 2 ∨ p = 3 ∨ p = 4 ∨ p = 5 ∨ p = 8 ∨ p = 9 ∨ p = 10 ∨ p = 11 ∨ p = 12 ∨ p = 13 ∨ p = 14 ∨ p = 15 := by
    simp only [P.first, P.plt, P.gotPlt] at hp h1 h2; omega
  rcases hc with h | h | h | h | h | h | h | h | h | h | h | h | h | h <;>
    simp [h, ownData, ownBytes, Early.growth, tableData, P.null, P.shstr, P.symstr, P.dynstr, P.interp, P.got, P.gotPlt, P.plt, P.sym,
      P.dynsym, P.dynamic, P.relaDyn, P.relaPlt, P.copyRel, P.hash, P.gnuHash, k1, k2, k3, k4, f3, f4]

/-- the bytes the file has for an own section -/
theorem Run.own_bytes (h : Run opts ops sched w w' file secs) (hc : CleanInputs ops) (st : Stages sched w) (hst : st.final = w')
    {t : Section} (ht : t ∈ secs) (h1 : t.ptr < P.first)
    (h2 : t.ptr ≠ P.null) (h3 : t.ptr ≠ P.interp) (h4 : t.ptr ≠ P.plt) (h5 : t.ptr ≠ P.gotPlt) : contents t = ownBytes st t.ptr := by
  rw [contents_of_datas (h.own_datas hc st hst ht h1 h2 h3 h4 h5), ownData_bytes st _ h1 h4 h5]

theorem Run.name_table (h : Run opts ops sched w w' file secs) (hg : GoodInputs ops) (hn : NamesFit w) (hf : NumbersFit w' file secs) :
    nameTable file = w.shstr.chunk := by
  have hr := h.reads hg hn hf
  obtain ⟨i, t, hi, hp, he⟩ := h.shstrndx hg.flags
  have hlt : i < secs.length := (List.getElem?_eq_some_iff.1 hi).1
  have hi16 : u16 i = i := Nat.mod_eq_of_lt (by have := hf.count; omega)
  unfold nameTable
  rw [hr.ehdr, hr.shdrs]
  simp only [he, hi16, List.getElem?_map, hi, Option.map_some]
  rw [hr.body t (List.mem_of_getElem? hi)]
  obtain ⟨st, hst⟩ := h.stages
  rw [h.own_bytes hg.clean st hst (List.mem_of_getElem? hi) (by rw [hp]; decide) (by rw [hp]; decide) (by rw [hp]; decide)
    (by rw [hp]; decide) (by rw [hp]; decide), hp]
  rfl

/-- no section name contains a NUL -/
def NamesClean (ops : List Op) : Prop := ∀ n sh d r, Op.push n sh d r ∈ ops → (0 : UInt8) ∉ n

theorem base_clean (hs : HashStyle) : ∀ n ∈ baseNames hs, (0 : UInt8) ∉ n := by cases hs <;> decide

theorem WInv.pushed_name {w0 : Writer} {pn : List Name} (hI : WInv opts w0 ops w pn) {n : Name} (hn : n ∈ pn) :
    n ∉ tabNames opts.hashStyle ∧ ∃ sh d r, Op.push n sh d r ∈ ops := by
  obtain ⟨i, hi, rfl⟩ := List.getElem_of_mem hn
  have hnd := hI.names.nodup
  rw [List.nodup_append] at hnd
  refine ⟨fun h => hnd.2.2 _ h _ hn rfl, ?_⟩
  have hl := hI.len
  have hlt : (tabNames opts.hashStyle).length + i < w.sections.length := by rw [hl, List.length_append]; omega
  obtain ⟨m, p, ps, h1, h2, _⟩ := hI.pushed i _ (List.getElem?_eq_getElem hlt)
  rw [List.getElem?_eq_getElem hi] at h1
  cases h1
  obtain ⟨r, hr⟩ := mem_pushesOf (n := pn[i]) (ops := ops) (p := p) (by rw [h2]; simp)
  exact ⟨p.1, p.2, r, hr⟩

theorem WInv.push_name {w0 : Writer} {pn : List Name} (hI : WInv opts w0 ops w pn) {n : Name} {sh : SectionHeader} {d : Option Bytes}
    {r : SectionRef} (h : Op.push n sh d r ∈ ops) : n ∈ tabNames opts.hashStyle ++ pn := by
  apply Classical.byContradiction
  intro hn
  have := hI.fresh n hn
  have hm : (sh, d) ∈ pushesOf n ops := by
    clear this hI hn
    induction ops with
    | nil => cases h
    | cons op ops ih =>
      rcases List.mem_cons.1 h with rfl | h
      · simp [pushesOf]
      · have := ih h
        cases op with
        | push m sh' d' r' =>
          simp only [pushesOf]
          split
          · exact List.mem_cons_of_mem _ this
          · exact this
        | _ => exact this
  rw [this] at hm; cases hm

/-- reading the name of a section -/
theorem Run.reads_name (h : Run opts ops sched w w' file secs) (hg : GoodInputs ops) (hz : NamesClean ops) (hn : NamesFit w)
    (hf : NumbersFit w' file secs) {t : Section} (ht : t ∈ secs) :
    Spec.nameOf file t.sh.toSpec = Dld.nameOf w t := by
  obtain ⟨w0, pn, h0, hI⟩ := h.hist.winv
  have h1 : t.sh.sh_name ∈ w.sections.map (·.sh.sh_name) := by
    obtain ⟨s, hs, e⟩ := h.origin hg.flags ht
    rw [show t.sh.sh_name = s.sh.sh_name from congrArg (·.2.2.2.1) e]
    exact List.mem_map_of_mem hs
  rw [hI.sh_names h0] at h1
  obtain ⟨n, hn1, e⟩ := List.mem_map.1 h1
  have hm : n ∈ tabNames opts.hashStyle ++ pn := by
    rcases List.mem_append.1 hn1 with h | h
    · exact List.mem_append_left _ ((tabNames_perm _).mem_iff.1 h)
    · exact List.mem_append_right _ h
  have hzn : (0 : UInt8) ∉ n := by
    rcases List.mem_append.1 hn1 with h | h
    · exact base_clean _ n h
    · obtain ⟨_, sh, d, r, hp⟩ := hI.pushed_name h
      exact hz n sh d r hp
  have hl := nameOff_lt hm
  have htot := hI.names.total
  have hn' : w.shstr.totalLen < 2 ^ 32 := hn
  rw [u32_of_lt (by omega)] at e
  unfold Spec.nameOf Dld.nameOf
  rw [h.name_table hg hn hf]
  show cstrAt _ t.sh.sh_name = _
  rw [← e, Holds.cstr hI.names hm hzn, Holds_name hI.names hm]

/-- the names of the sections of the file -/
theorem Run.names_perm (h : Run opts ops sched w w' file secs) (hg : GoodInputs ops) (hz : NamesClean ops) (hn : NamesFit w)
    (hf : NumbersFit w' file secs) {w0 : Writer} {pn : List Name} (hI : WInv opts w0 ops w pn) (h0 : Writer.new opts = .ok w0) :
    ((shdrs file).map (Spec.nameOf file)).Perm ((baseNames opts.hashStyle ++ pn).map some) := by
  rw [(h.reads hg hn hf).shdrs, List.map_map]
  have h1 : secs.map (Spec.nameOf file ∘ fun s => s.sh.toSpec) = secs.map (Dld.nameOf w) :=
    List.map_congr_left fun t ht => h.reads_name hg hz hn hf ht
  rw [h1, ← hI.sec_names h0 hn]
  have h2 := (h.tags_perm hg.flags).map fun x => w.shstr.name x.2.2.2.1
  rw [List.map_map, List.map_map] at h2
  exact h2

/-- the section a push went to has the pushed name -/
theorem Run.push_named (h : Run opts ops sched w w' file secs) (hg : GoodInputs ops) (hn : NamesFit w)
    {n : Name} {sh : SectionHeader} {d : Option Bytes} {r : SectionRef} (hp : Op.push n sh d r ∈ ops) :
    ∃ t ∈ secs, t.ptr = r.ptr ∧ Dld.nameOf w t = some n := by
  obtain ⟨w0, pn, h0, hI⟩ := h.hist.winv
  obtain ⟨_, i, h1, h2⟩ := h.hist.cinv.push n sh d r hp
  have hk := hI.names.names
  have hkeys : w.shstr.names.map (·.1) = tabNames opts.hashStyle ++ pn := by
    rw [hk]; exact StringTable.keys_lay 0 0 _
  rw [hkeys] at h1
  rw [List.getElem?_map, Option.map_eq_some_iff] at h2
  obtain ⟨s, hs, hsp⟩ := h2
  obtain ⟨t, ht, e⟩ := h.written hg.flags (List.mem_of_getElem? hs)
  refine ⟨t, ht, by rw [← hsp]; exact congrArg (·.1) e, ?_⟩
  have hnm := congrArg (·[i]?) (hI.sec_names h0 hn)
  simp only [List.getElem?_map, hs, Option.map_some] at hnm
  unfold Dld.nameOf
  rw [show t.sh.sh_name = s.sh.sh_name from congrArg (·.2.2.2.1) e]
  have hb : (baseNames opts.hashStyle ++ pn)[i]? = some n := by
    by_cases hi : i < (tabNames opts.hashStyle).length
    · rw [List.getElem?_append_left hi] at h1
      have hmem := List.mem_of_getElem? h1
      have hnr := hg.clean.names n sh d r hp
      have hnil : n = [] := by
        apply Classical.byContradiction
        intro hne
        have : ∀ n ∈ tabNames opts.hashStyle, n ≠ [] → n ∈ reservedNames := by cases opts.hashStyle <;> decide
        exact hnr (this n hmem hne)
      have hi0 : ∀ j < (tabNames opts.hashStyle).length, (tabNames opts.hashStyle)[j]? = some [] → j = 0 := by
        cases opts.hashStyle <;> decide
      rw [hnil] at h1
      rw [hi0 i hi h1, hnil]
      cases opts.hashStyle <;> rfl
    · rw [List.getElem?_append_right (by omega)] at h1
      rw [List.getElem?_append_right (by rw [(base_length _).1]; omega), (base_length _).1]; exact h1
  rw [hb] at hnm
  simpa using hnm

end Dld
