import Verif.Spec.Loader
import Verif.Lemmas.TableRead
import Verif.Lemmas.Pushes
/-! # What a process sees in memory -/
namespace Dld
open Writer Spec

variable {opts : Options} {ops : List Op} {sched : Sched} {w w' : Writer} {file : Bytes} {secs : List Section}

theorem find?_unique {α : Type} {p : α → Bool} {l : List α} {x : α} (hx : x ∈ l) (hp : p x = true) (h : ∀ y ∈ l, p y = true → y = x) :
    l.find? p = some x := by
  cases hf : l.find? p with
  | none => exact absurd hp (by simpa using List.find?_eq_none.1 hf x hx)
  | some y => rw [h y (List.mem_of_find?_eq_some hf) (List.find?_some hf)]

/-- the segment of an address -/
theorem GoodRun.segment (G : GoodRun opts ops sched w w' file secs) {ph : ProgramHeader} (hph : ph ∈ loadsOf w') {a : Nat}
    (h1 : ph.p_vaddr ≤ a) (h2 : a < ph.p_vaddr + ph.p_memsz) : segmentAt file a = some ph.toSpec := by
  obtain ⟨_, hasc⟩ := C40_load_segments G.run G.good.flags
  unfold segmentAt
  rw [(G.run.reads G.good G.names G.fit).phdrs]
  obtain ⟨hm, hty⟩ := List.mem_filter.1 hph
  refine find?_unique (List.mem_map_of_mem hm) ?_ ?_
  · show (ph.p_type == 1 && decide (ph.p_vaddr ≤ a) && decide (a < ph.p_vaddr + ph.p_memsz)) = true
    simp only [hty, h1, h2, decide_true, Bool.and_self]
  · intro y hy hp
    obtain ⟨q, hq, rfl⟩ := List.mem_map.1 hy
    have hp : (q.p_type == 1 && decide (q.p_vaddr ≤ a) && decide (a < q.p_vaddr + q.p_memsz)) = true := hp
    simp only [Bool.and_eq_true, decide_eq_true_eq] at hp
    have hq' : q ∈ loadsOf w' := List.mem_filter.2 ⟨hq, hp.1.1⟩
    obtain ⟨i, hi, rfl⟩ := List.getElem_of_mem hph
    obtain ⟨j, hj, rfl⟩ := List.getElem_of_mem hq'
    have hij : j = i := by
      rcases Nat.lt_trichotomy i j with h | h | h
      · have := (List.pairwise_iff_getElem.1 hasc i j hi hj h).1; omega
      · exact h.symm
      · have := (List.pairwise_iff_getElem.1 hasc j i hj hi h).1; omega
    subst hij
    rfl

theorem memory_eq {file : Bytes} {a n : Nat} {l : List (Option UInt8)} (hl : l.length = n) (h : ∀ i < n, some (memAt file (a + i)) = l[i]?) :
    memory file a n = l := by
  unfold memory
  apply List.ext_getElem?
  intro i
  by_cases hi : i < n
  · rw [← h i hi, List.getElem?_map, List.getElem?_range hi]; rfl
  · rw [List.getElem?_eq_none_iff.2 (by simp; omega), List.getElem?_eq_none_iff.2 (by omega)]

/-- the bytes of the file a segment shows -/
theorem GoodRun.memAt_file (G : GoodRun opts ops sched w w' file secs) {ph : ProgramHeader} (hph : ph ∈ loadsOf w') {k : Nat}
    (hk : k < ph.p_filesz) : memAt file (ph.p_vaddr + k) = file[ph.p_offset + k]? := by
  have hle := ((C40_load_segments G.run G.good.flags).1 ph hph).2.2.2.2.2
  unfold memAt
  rw [G.segment hph (by omega) (by omega)]
  show (if ph.p_vaddr + k - ph.p_vaddr < ph.p_filesz then file[ph.p_offset + (ph.p_vaddr + k - ph.p_vaddr)]? else some 0) = _
  rw [if_pos (by omega), Nat.add_sub_cancel_left]

/-- what is behind the file part of a segment -/
theorem GoodRun.memAt_zero (G : GoodRun opts ops sched w w' file secs) {ph : ProgramHeader} (hph : ph ∈ loadsOf w') {k : Nat}
    (h1 : ph.p_filesz ≤ k) (h2 : k < ph.p_memsz) : memAt file (ph.p_vaddr + k) = some 0 := by
  unfold memAt
  rw [G.segment hph (by omega) (by omega)]
  show (if ph.p_vaddr + k - ph.p_vaddr < ph.p_filesz then file[ph.p_offset + (ph.p_vaddr + k - ph.p_vaddr)]? else some 0) = _
  rw [if_neg (by omega)]

/-- the name `.copyrel` belongs to the section the writer makes -/
theorem GoodRun.copyRel_name (G : GoodRun opts ops sched w w' file secs) {t : Section} (ht : t ∈ secs) :
    Spec.nameOf file t.sh.toSpec = some b!".copyrel" ↔ t.kind = .copyRel := by
  rw [G.run.reads_name G.good G.clean G.names G.fit ht]
  have h1 := G.run.name_own G.good G.names ht (p := P.copyRel) (by decide)
  have h2 : ptrName P.copyRel = b!".copyrel" := rfl
  rw [← h2, h1]
  obtain ⟨i, hi, rfl⟩ := List.getElem_of_mem ht
  obtain ⟨s, hs, hf⟩ := G.run.source (List.getElem?_eq_getElem hi)
  obtain ⟨hdr, st, hl⟩ := G.run.laid G.good.flags
  rw [hf.ptr, hf.kind]
  exact ((hl.facts G.run.hist.secFacts).known s (List.mem_of_getElem? hs)).copyRel_kind.symm

theorem GoodRun.header_at (G : GoodRun opts ops sched w w' file secs) {i : Nat} {e : EShdr} (h : (shdrs file)[i]? = some e) :
    ∃ s, secs[i]? = some s ∧ e = s.sh.toSpec := by
  rw [(G.run.reads G.good G.names G.fit).shdrs, List.getElem?_map] at h
  cases hs : secs[i]? with
  | none => rw [hs] at h; cases h
  | some s => rw [hs] at h; exact ⟨s, rfl, (Option.some.inj h).symm⟩

/-- **C85**, the part that holds for sections with contents: a process finds the bytes that the file
has for an allocated section at the address the section header gives, all of them and nothing else,
if no zero-fill section with the same flags, other than `.copyrel`, stands before it. -/
theorem C85_contents_partial (G : GoodRun opts ops sched w w' file secs) (i : Nat) (e : EShdr) (he : (shdrs file)[i]? = some e)
    (ha : e.allocated = true) (hb : e.type ≠ 8)
    (hz : ∀ j t, j < i → (shdrs file)[j]? = some t → t.flags = e.flags → Spec.nameOf file t ≠ some b!".copyrel" → t.type ≠ 8) :
    memory file e.addr e.size = (bodyOf file e).map some := by
  have hr := G.run.reads G.good G.names G.fit
  obtain ⟨s, hs, rfl⟩ := G.header_at he
  have hm := List.mem_of_getElem? hs
  obtain ⟨ph, hph, h1, h2, h3, h4⟩ := C42_mapped_partial G.run G.good.flags i s hs ha hb (by
    intro j t hj ht hfl hk
    exact hz j t.sh.toSpec hj (by rw [hr.shdrs, List.getElem?_map, ht]; rfl) hfl
      (fun hn => hk ((G.copyRel_name (List.mem_of_getElem? ht)).1 hn)))
  obtain ⟨e', he', _, hlen⟩ := (C39_file_ranges G).1 i s hs
  rw [he] at he'
  cases he'
  have hfs : s.sh.toSpec.fileSize = s.sh.sh_size := if_neg hb
  have hl : (bodyOf file s.sh.toSpec).length = s.sh.sh_size := by rw [hr.body s hm, hlen, hfs]
  refine memory_eq (by rw [List.length_map, hl]; rfl) ?_
  intro k hk
  have hk : k < s.sh.sh_size := hk
  have e1 : s.sh.toSpec.addr + k = ph.p_vaddr + (s.sh.sh_addr - ph.p_vaddr + k) := by
    show s.sh.sh_addr + k = _
    omega
  rw [e1, G.memAt_file hph (by omega)]
  have e2 : ph.p_offset + (s.sh.sh_addr - ph.p_vaddr + k) = s.sh.sh_offset + k := by omega
  have e3 : (bodyOf file s.sh.toSpec)[k]? = file[s.sh.sh_offset + k]? := by
    show ((file.drop s.sh.sh_offset).take s.sh.toSpec.fileSize)[k]? = _
    rw [hfs, List.getElem?_take_of_lt hk, List.getElem?_drop]
  rw [e2, List.getElem?_map, e3]
  have : k < (bodyOf file s.sh.toSpec).length := by omega
  have h5 := List.getElem?_eq_getElem this
  rw [e3] at h5
  rw [h5]; rfl

/-- **C85**, the part that holds for zero-fill sections: a process finds zeros in an allocated
zero-fill section other than `.copyrel` if no section with the same flags behind it has contents. -/
theorem C85_zero_partial (G : GoodRun opts ops sched w w' file secs) (i : Nat) (e : EShdr) (he : (shdrs file)[i]? = some e)
    (ha : e.allocated = true) (hb : e.type = 8) (hc : Spec.nameOf file e ≠ some b!".copyrel")
    (hz : ∀ j t, i < j → (shdrs file)[j]? = some t → t.flags = e.flags → t.fileSize = 0) :
    memory file e.addr e.size = List.replicate e.size (some 0) := by
  have hr := G.run.reads G.good G.names G.fit
  obtain ⟨s, hs, rfl⟩ := G.header_at he
  have hnc : s.kind ≠ .copyRel := fun h => hc ((G.copyRel_name (List.mem_of_getElem? hs)).2 h)
  obtain ⟨hdr, st, hl⟩ := G.run.laid G.good.flags
  obtain ⟨k, t, rfl, ht, hfs, hta⟩ := G.run.source_drop G.good.flags hs ha
  obtain ⟨hk, rfl⟩ := List.getElem?_eq_some_iff.1 ht
  obtain ⟨ph, hph, hin, hg, _, _, hd⟩ := hl.inv.cover ((w'.sections.drop 1).take k) _ ((w'.sections.drop 1).drop (k + 1))
    (by rw [List.getElem_cons_drop]; exact (List.take_append_drop k _).symm) hta
  have hph' := hph
  rw [← loadsOf_eq hl] at hph'
  have htype : (w'.sections.drop 1)[k].sh.sh_type = SHT_NOBITS := by rw [← hfs.type]; exact hb
  have hdisk : (w'.sections.drop 1)[k].sizeOnDisk = 0 := by unfold Section.sizeOnDisk; rw [if_neg (fun h => h htype)]
  have hend := hd (by
    intro u hu hfl
    obtain ⟨j, hj, rfl⟩ := List.getElem_of_mem hu
    simp only [List.getElem_drop] at hfl ⊢
    simp only [List.length_drop] at hj
    have hj2 : 1 + (k + 1 + j) < secs.length := by rw [G.run.secs_length]; omega
    obtain ⟨v, hv, hfv⟩ := G.run.source (List.getElem?_eq_getElem hj2)
    have hv' : v = w'.sections[1 + (k + 1 + j)]'(by rw [← G.run.secs_length]; exact hj2) := by
      rw [List.getElem?_eq_getElem (by rw [← G.run.secs_length]; exact hj2)] at hv
      exact (Option.some.inj hv).symm
    rw [← hv']
    have h0 := hz (1 + (k + 1 + j)) _ (by omega) (by rw [hr.shdrs, List.getElem?_map, List.getElem?_eq_getElem hj2]; rfl)
      (by
        show secs[1 + (k + 1 + j)].sh.sh_flags = s.sh.sh_flags
        rw [hfv.flags, hfs.flags, hv', hfl, List.getElem_drop])
    have h0 : (if secs[1 + (k + 1 + j)].sh.sh_type = 8 then 0 else secs[1 + (k + 1 + j)].sh.sh_size) = 0 := h0
    unfold Section.sizeOnDisk
    rw [hfv.type] at h0
    by_cases h8 : v.sh.sh_type = 8
    · rw [if_neg (fun h => h h8)]
    · rw [if_neg h8] at h0
      have hcv : v.kind ≠ .copyRel := by
        intro hcv
        have hkn := (hl.facts G.run.hist.secFacts).known v (List.mem_of_getElem? hv)
        have hp := hkn.copyRel_kind.1 hcv
        have ho := origins_cases (hkn.origin_of_ptr (by rw [hp]; decide))
        simp only [Section.origin, Prod.mk.injEq, hp] at ho
        simp [P.null, P.shstr, P.symstr, P.dynstr, P.interp, P.got, P.gotPlt, P.plt, P.sym, P.dynsym, P.dynamic, P.relaDyn, P.relaPlt,
          P.copyRel, P.hash, P.gnuHash] at ho
        exact h8 (by simpa [SHT_NOBITS] using ho.2.2.1)
      rw [hfv.size (by rw [hfv.kind]; exact hcv)] at h0
      rw [h0]; simp)
  have h1 := hin.memLo
  have h2 := hin.memHi
  have h3 := hin.fileLo
  refine memory_eq (by simp) ?_
  intro j hj
  have hj : j < s.sh.sh_size := hj
  have e1 : s.sh.toSpec.addr + j = ph.p_vaddr + (s.sh.sh_addr - ph.p_vaddr + j) := by
    show s.sh.sh_addr + j = _
    rw [hfs.addr]
    omega
  have e4 : s.sh.toSpec.size = s.sh.sh_size := rfl
  rw [hfs.size hnc] at hj
  rw [e1, G.memAt_zero hph' (by rw [hfs.addr]; omega) (by rw [hfs.addr]; omega), e4, hfs.size hnc,
    List.getElem?_replicate_of_lt hj]

/-- **C85**: the claim for a file -/
def MemoryAsDescribed (file : Bytes) : Prop :=
  ∀ e ∈ shdrs file, e.allocated = true → memory file e.addr e.size =
    if e.type = 8 then List.replicate e.size (some 0) else (bodyOf file e).map some

/-- an initialised variable, and an array of zeros of larger alignment -/
def bigBssOps : List Op :=
  [ .push b!".data" (demoSh SHT_PROGBITS 3 8 8) (some [1, 2, 3, 4, 5, 6, 7, 8]) ⟨16, 0⟩,
    .push b!".bss" (demoSh SHT_NOBITS 3 64 32) none ⟨17, 0⟩ ]

/-- **C85** is violated: with a zero-fill section of larger alignment than `.data`, a process finds
zeros in `.data`, which holds `1, 2, …, 8`, and bytes that are not zero in `.bss`. -/
theorem C85_memory_violated : ∃ opts ops sched w w' file secs, GoodRun opts ops sched w w' file secs ∧ ¬ MemoryAsDescribed file ∧
    (∃ e ∈ shdrs file, Spec.nameOf file e = some b!".bss" ∧ e.allocated = true ∧ e.type = 8 ∧ e.size = 64 ∧
      memory file e.addr e.size ≠ List.replicate 64 (some 0)) ∧
    (∃ e ∈ shdrs file, Spec.nameOf file e = some b!".data" ∧ e.allocated = true ∧ bodyOf file e = [1, 2, 3, 4, 5, 6, 7, 8] ∧
      e.size = 8 ∧ memory file e.addr e.size = List.replicate 8 (some 0)) := by
  obtain ⟨w, w', f, s, G, hp⟩ := GoodRun.of_runs (opts := .default) (ops := bigBssOps) (sched := .id)
    (P := fun w _ f s => (s.any fun s => decide (Dld.nameOf w s = some b!".bss") && let e := s.sh.toSpec; decide (e.allocated = true ∧ e.type = 8 ∧ e.size = 64 ∧
      memory f e.addr e.size ≠ List.replicate 64 (some 0))) &&
      (s.any fun s => decide (Dld.nameOf w s = some b!".data") && let e := s.sh.toSpec; decide (e.allocated = true ∧ bodyOf f e = [1, 2, 3, 4, 5, 6, 7, 8] ∧
      e.size = 8 ∧ memory f e.addr e.size = List.replicate 8 (some 0)))) Sched.id_valid (by decide +kernel) (by decide +kernel)
  have hr := G.run.reads G.good G.names G.fit
  simp only [Bool.and_eq_true, List.any_eq_true, decide_eq_true_eq] at hp
  obtain ⟨⟨a, ha, ha1, ha2, ha3, ha4, ha5⟩, b, hb, hb1, hb'⟩ := hp
  have hm : ∀ t ∈ s, t.sh.toSpec ∈ shdrs f := fun t ht => by rw [hr.shdrs]; exact List.mem_map_of_mem ht
  refine ⟨_, _, _, w, w', f, s, G, fun h => ?_, ⟨_, hm a ha, ?_, ha2, ha3, ha4, ha5⟩, _, hm b hb, ?_, hb'⟩
  · have := h _ (hm a ha) ha2
    rw [if_pos ha3] at this
    exact ha5 (by rw [this, ha4])
  · rw [G.run.reads_name G.good G.clean G.names G.fit ha, ha1]
  · rw [G.run.reads_name G.good G.clean G.names G.fit hb, hb1]

/-- type and flags of an own section, by name -/
theorem GoodRun.own_header (G : GoodRun opts ops sched w w' file secs) {t : Section} (ht : t ∈ secs) (hp : t.ptr < P.first) :
    t.sh.sh_type = (ownOrigin t.ptr).2.2.2.1 ∧ t.sh.sh_flags = (ownOrigin t.ptr).2.2.2.2.1 := by
  obtain ⟨i, hi, rfl⟩ := List.getElem_of_mem ht
  obtain ⟨s, hs, hf⟩ := G.run.source (List.getElem?_eq_getElem hi)
  obtain ⟨hdr, st, hl⟩ := G.run.laid G.good.flags
  rw [hf.ptr] at hp ⊢
  have ho := ((hl.facts G.run.hist.secFacts).known s (List.mem_of_getElem? hs)).own hp
  rw [← ho, hf.type, hf.flags]
  exact ⟨rfl, rfl⟩

/-- the contents of `.interp` -/
theorem GoodRun.interp_contents (G : GoodRun opts ops sched w w' file secs) {t : Section} (ht : t ∈ secs) (hp : t.ptr = P.interp) :
    contents t = opts.dynamicLinker.full ++ [0] := by
  obtain ⟨i, hi, hi'⟩ := List.getElem_of_mem ht
  have ht' : secs[i]? = some t := by rw [← hi']; exact List.getElem?_eq_getElem hi
  obtain ⟨st, hst⟩ := G.run.stages
  obtain ⟨s, hs, hf, hfin⟩ := G.run.finalized ht'
  subst hst
  have hch := finalizeSec_chunks hfin
  have hsf := G.run.hist.secFacts
  obtain ⟨s0, a, p, q, u, r, htr⟩ := st.trip G.run.valid hsf G.run.hist.untouched hs
  have hptr : s0.ptr = P.interp := by rw [← hp, hf.ptr, htr.ptr]
  obtain ⟨w0, pn, h0, hI⟩ := G.run.hist.winv
  have hown := (G.good.clean.own hI h0 htr.mem0 (by rw [hptr]; decide)).2
  rw [hptr] at hown
  rcases hown with ⟨h, _⟩ | ⟨_, hown⟩
  · exact absurd h (by decide)
  rw [if_pos rfl] at hown
  have hd := htr.datas_eq (by rw [hptr]; decide) (by rw [hptr]; decide) (by
    intro c hc
    obtain ⟨k, hk, rfl⟩ := List.getElem_of_mem hc
    have hck := chunkAt_of_mem (hI.ptrs_nodup h0) htr.mem0 k
    rw [List.getElem?_eq_getElem hk] at hck
    rw [(G.run.hist.cinv.chunk _ _ hck).2.1]
    cases hr : relocsAt ⟨s0.ptr, k⟩ ops with
    | nil => rfl
    | cons e l =>
      obtain ⟨path, hm⟩ := mem_relocsAt.1 (show e ∈ relocsAt ⟨s0.ptr, k⟩ ops by rw [hr]; simp)
      obtain ⟨n, sh, d, hpush⟩ := G.good.refs.reloc _ _ _ _ hm
      obtain ⟨v, hv, hvp, hvn⟩ := G.run.push_named G.good G.names hpush
      have := (G.run.name_own G.good G.names hv (p := P.interp) (by decide)).2 (by rw [hvp]; exact hptr)
      rw [hvn] at this
      cases this
      exact absurd (by decide) (G.good.clean.names _ _ _ _ hpush))
  rw [hown, hptr] at hd
  have e : (st.growth P.interp).add ++ tableData st.relocated st.tables P.interp = [] := rfl
  rw [List.append_assoc, e, List.append_nil] at hd
  have hkind : s.kind = .plain := by
    have h1 : s.kind = p.kind := congrArg (·.2.2.2.1) htr.post_s
    have h2 : p.kind = s0.kind := by rw [htr.core.2.2.2.1]; exact congrArg (·.2.2.2.1) htr.bare
    have h3 := (hsf.known s0 htr.mem0).own (by rw [hptr]; decide)
    rw [hptr] at h3
    rw [h1, h2]
    exact congrArg (·.2.2.1) h3
  rw [hkind] at hch
  have hch : t.chunks = s.chunks := hch
  rw [contents_of_datas (t := t) rfl, hch, hd]
  simp

theorem GoodRun.filter_phdrs (G : GoodRun opts ops sched w w' file secs) {ty : Nat} {ph : ProgramHeader}
    (h : w'.programHeaders.filter (fun ph => ph.p_type == ty) = [ph]) : phdrsOf file ty = [ph.toSpec] := by
  unfold phdrsOf
  rw [(G.run.reads G.good G.names G.fit).phdrs, List.filter_map]
  have : w'.programHeaders.filter ((fun p : EPhdr => p.type == ty) ∘ fun p => p.toSpec) = [ph] := h
  rw [this]
  rfl

theorem GoodRun.no_own_push (G : GoodRun opts ops sched w w' file secs) {n : Name} (hn : n ∈ reservedNames) : pushesOf n ops = [] := by
  cases hp : pushesOf n ops with
  | nil => rfl
  | cons p ps =>
    obtain ⟨r, hr⟩ := mem_pushesOf (n := n) (ops := ops) (p := p) (by rw [hp]; simp)
    exact absurd hn (G.good.clean.names n p.1 p.2 r hr)

/-- **C86**: the file has exactly one `PT_INTERP` header, and the bytes it points at are the path of
the dynamic linker that the options give, with a NUL behind it. -/
theorem C86_interpreter (G : GoodRun opts ops sched w w' file secs) :
    ∃ p, phdrsOf file 3 = [p] ∧ p.bytes file = opts.dynamicLinker.full ++ [0] := by
  have hr := G.run.reads G.good G.names G.fit
  obtain ⟨⟨ph, h1, ⟨s, hs, hn⟩, hd⟩, _⟩ := C44_interp_dynamic_partial G.run G.good.flags G.good.dynamic G.names
    (G.no_own_push (by decide)) (G.no_own_push (by decide))
  obtain ⟨hdr, st, hl⟩ := G.run.laid G.good.flags
  have hd := hd s hs hn
  unfold Dld.nameOf at hn
  rw [hl.shstr] at hn
  have hp := (G.run.name_own G.good G.names hs (p := P.interp) (by decide)).1 hn
  refine ⟨_, G.filter_phdrs h1, ?_⟩
  show slice file ph.p_offset ph.p_filesz = _
  rw [← G.interp_contents hs hp, ← hr.body s hs, hd.2.2.1, hd.2.2.2.1]
  have hty := (G.own_header hs (by rw [hp]; decide)).1
  rw [hp] at hty
  show _ = slice file s.sh.sh_offset (if s.sh.sh_type = 8 then 0 else s.sh.sh_size)
  rw [hty, if_neg (by decide)]

/-- a link with a dynamic linker -/
example : ∃ w w' f s, GoodRun Options.default demoOps Sched.rev w w' f s ∧
    decide (Options.default.dynamicLinker.full = b!"/lib64/ld-linux-x86-64.so.2") = true :=
  GoodRun.of_runs Sched.rev_valid demo_good (by decide +kernel)

/-- **C87**, the part that holds: the file has exactly one `PT_DYNAMIC` header, and a process finds
the contents of `.dynamic` at the address it gives, if no zero-fill section with the flags of
`.dynamic`, other than `.copyrel`, stands before `.dynamic`. -/
theorem C87_dynamic_partial (G : GoodRun opts ops sched w w' file secs) (i : Nat) (e : EShdr) (he : (shdrs file)[i]? = some e)
    (hn : Spec.nameOf file e = some b!".dynamic")
    (hz : ∀ j t, j < i → (shdrs file)[j]? = some t → t.flags = e.flags → Spec.nameOf file t ≠ some b!".copyrel" → t.type ≠ 8) :
    ∃ p, phdrsOf file 2 = [p] ∧ memory file p.vaddr p.memsz = (bodyNamed file b!".dynamic").map some := by
  have hr := G.run.reads G.good G.names G.fit
  obtain ⟨s, hs, rfl⟩ := G.header_at he
  have hm := List.mem_of_getElem? hs
  rw [G.run.reads_name G.good G.clean G.names G.fit hm] at hn
  have hp := (G.run.name_own G.good G.names hm (p := P.dynamic) (by decide)).1 hn
  obtain ⟨hty, hfl⟩ := G.own_header hm (by rw [hp]; decide)
  rw [hp] at hty hfl
  obtain ⟨_, ⟨ph, h1, _, hd⟩, _⟩ := C44_interp_dynamic_partial G.run G.good.flags G.good.dynamic G.names
    (G.no_own_push (by decide)) (G.no_own_push (by decide))
  obtain ⟨hdr, st, hl⟩ := G.run.laid G.good.flags
  have hd := hd s hm (by unfold Dld.nameOf at hn ⊢; rw [hl.shstr]; exact hn)
  have hmem := C85_contents_partial G i _ he (by show s.sh.sh_flags.testBit 1 = true; rw [hfl]; decide)
    (by show s.sh.sh_type ≠ 8; rw [hty]; decide) hz
  refine ⟨_, G.filter_phdrs h1, ?_⟩
  obtain ⟨t, ht, htp, htn⟩ := G.own (p := P.dynamic) (by cases opts.hashStyle <;> decide)
  have hts : t = s := eq_of_ptr (G.run.ptrs_nodup G.good.flags) ht hm (by rw [htp, hp])
  have hb : bodyNamed file b!".dynamic" = bodyOf file s.sh.toSpec := by
    unfold bodyNamed sectionNamed
    have : ptrName P.dynamic = b!".dynamic" := rfl
    rw [← this, htn, hts]
  rw [hb, ← hmem]
  show memory file ph.p_vaddr ph.p_memsz = memory file s.sh.sh_addr s.sh.sh_size
  rw [hd.1, hd.2.2.2.2]

/-- **C87** is violated: with a zero-fill section of larger alignment than `.dynamic`, a process finds
other bytes than those of `.dynamic` at the address in the `PT_DYNAMIC` header. -/
theorem C87_dynamic_violated : ∃ opts ops sched w w' file secs, GoodRun opts ops sched w w' file secs ∧
    ∃ p ∈ phdrs file, p.type = 2 ∧ 16 ≤ p.memsz ∧ p.bytes file = bodyNamed file b!".dynamic" ∧
      memory file p.vaddr 16 ≠ ((bodyNamed file b!".dynamic").take 16).map some := by
  obtain ⟨w, w', f, s, G, hp⟩ := GoodRun.of_runs (opts := .default) (ops := bigBssOps) (sched := .id)
    (P := fun w _ f s => (s.any fun t => decide (Dld.nameOf w t = some b!".dynamic" ∧ ∃ p ∈ phdrs f, p.type = 2 ∧ 16 ≤ p.memsz ∧
      p.bytes f = bodyOf f t.sh.toSpec ∧ memory f p.vaddr 16 ≠ ((bodyOf f t.sh.toSpec).take 16).map some)))
    Sched.id_valid (by decide +kernel) (by decide +kernel)
  simp only [List.any_eq_true, decide_eq_true_eq] at hp
  obtain ⟨t, ht, hn, p, hp, h1, h2, h3, h4⟩ := hp
  have hpt := (G.run.name_own G.good G.names ht (p := P.dynamic) (by decide)).1 hn
  obtain ⟨t', ht', htp, htn⟩ := G.own (p := P.dynamic) (by decide)
  have hts : t' = t := eq_of_ptr (G.run.ptrs_nodup G.good.flags) ht' ht (by rw [htp, hpt])
  have hb : bodyNamed f b!".dynamic" = bodyOf f t.sh.toSpec := by
    unfold bodyNamed sectionNamed
    have : ptrName P.dynamic = b!".dynamic" := rfl
    rw [← this, htn, hts]
  exact ⟨_, _, _, w, w', f, s, G, p, hp, h1, h2, by rw [hb]; exact h3, by rw [hb]; exact h4⟩

/-- an initialised variable, and an array of zeros of the same alignment -/
def smallBssOps : List Op :=
  [ .push b!".data" (demoSh SHT_PROGBITS 3 8 8) (some [1, 2, 3, 4, 5, 6, 7, 8]) ⟨16, 0⟩,
    .push b!".bss" (demoSh SHT_NOBITS 3 64 8) none ⟨17, 0⟩ ]

/-- the hypotheses of `C85_contents_partial`, `C85_zero_partial` and `C87_dynamic_partial` hold for
`.data`, `.bss` and `.dynamic` of this link -/
example : ∃ w w' f s, GoodRun Options.default smallBssOps .id w w' f s ∧ ∃ i j k d b y,
    (shdrs f)[i]? = some d ∧ Spec.nameOf f d = some b!".data" ∧ d.allocated = true ∧ d.type ≠ 8 ∧ d.size = 8 ∧
    (∀ (l : Nat) (t : EShdr), l < i → (shdrs f)[l]? = some t → t.flags = d.flags → Spec.nameOf f t ≠ some b!".copyrel" → t.type ≠ 8) ∧
    (shdrs f)[j]? = some b ∧ b.allocated = true ∧ b.type = 8 ∧ b.size = 64 ∧ Spec.nameOf f b = some b!".bss" ∧
    (∀ (l : Nat) (t : EShdr), j < l → (shdrs f)[l]? = some t → t.flags = b.flags → t.fileSize = 0) ∧
    (shdrs f)[k]? = some y ∧ Spec.nameOf f y = some b!".dynamic" ∧
    (∀ (l : Nat) (t : EShdr), l < k → (shdrs f)[l]? = some t → t.flags = y.flags → Spec.nameOf f t ≠ some b!".copyrel" → t.type ≠ 8) := by
  obtain ⟨w, w', f, s, G, hp⟩ := GoodRun.of_runs (opts := .default) (ops := smallBssOps) (sched := .id)
    (P := fun w _ f s => (s[12]?).any fun d => (s[13]?).any fun b => (s[11]?).any fun y =>
        decide (Dld.nameOf w d = some b!".data" ∧ d.sh.toSpec.allocated = true ∧ d.sh.sh_type ≠ 8 ∧ d.sh.sh_size = 8 ∧
        Dld.nameOf w b = some b!".bss" ∧ b.sh.toSpec.allocated = true ∧ b.sh.sh_type = 8 ∧ b.sh.sh_size = 64 ∧
        Dld.nameOf w y = some b!".dynamic" ∧ y.sh.sh_flags = d.sh.sh_flags) &&
        ((s.take 12).all fun t => decide (t.sh.sh_flags = d.sh.sh_flags → Dld.nameOf w t ≠ some b!".copyrel" → t.sh.sh_type ≠ 8)) &&
        (s.drop 14).all fun t => decide (t.sh.sh_flags = b.sh.sh_flags → t.sh.toSpec.fileSize = 0))
    Sched.id_valid (by decide +kernel) (by decide +kernel)
  have hr := G.run.reads G.good G.names G.fit
  simp only [Option.any_eq_true, Bool.and_eq_true, decide_eq_true_eq, List.all_eq_true] at hp
  obtain ⟨d, hd, b, hb, y, hy, ⟨⟨d1, d2, d3, d4, b1, b2, b3, b4, y1, y2⟩, p1⟩, p2⟩ := hp
  have hat : ∀ {n : Nat} {t : Section}, s[n]? = some t → (shdrs f)[n]? = some t.sh.toSpec := by
    intro n t h; rw [hr.shdrs, List.getElem?_map, h]; rfl
  have hnm : ∀ {n : Nat} {t : Section}, s[n]? = some t → Spec.nameOf f t.sh.toSpec = Dld.nameOf w t := by
    intro n t h; exact G.run.reads_name G.good G.clean G.names G.fit (List.mem_of_getElem? h)
  have hlo : ∀ (l : Nat) (t : EShdr), l < 12 → (shdrs f)[l]? = some t → t.flags = d.sh.sh_flags →
      Spec.nameOf f t ≠ some b!".copyrel" → t.type ≠ 8 := by
    intro l t hl ht h1 h2
    obtain ⟨u, hu, rfl⟩ := G.header_at ht
    rw [hnm hu] at h2
    exact p1 u (List.mem_of_getElem? (i := l) (by rw [List.getElem?_take_of_lt hl]; exact hu)) h1 h2
  refine ⟨w, w', f, s, G, 12, 13, 11, _, _, _, hat hd, (hnm hd).trans d1, d2, d3, d4, hlo, hat hb, b2, b3, b4, (hnm hb).trans b1, ?_,
    hat hy, (hnm hy).trans y1, ?_⟩
  · intro l t hl ht h1
    obtain ⟨u, hu, rfl⟩ := G.header_at ht
    exact p2 u (List.mem_of_getElem? (i := l - 14) (by rw [List.getElem?_drop, show 14 + (l - 14) = l by omega]; exact hu)) h1
  · intro l t hl ht h1
    exact hlo l t (by omega) ht (h1.trans y2)

end Dld
