import Verif.Lemmas.Trace
import Verif.Lemmas.Demo
/-! # Properties of the program headers and the memory layout of a complete link -/
namespace Dld
open Writer

theorem hasFlag_testBit (f i : Nat) (hi : i < 32) : hasFlag f (2 ^ i) = f.testBit i := by
  have h1 : ∀ {a b : Bool}, (a = true ↔ b = true) → a = b := by decide
  apply h1
  unfold hasFlag u32
  rw [beq_iff_eq]
  have h2 : (f % 4294967296).testBit i = f.testBit i := by
    rw [show 4294967296 = 2 ^ 32 from rfl, Nat.testBit_mod_two_pow]; simp [hi]
  constructor
  · intro h
    have := congrArg (·.testBit i) h
    simp only [Nat.testBit_and, h2, Nat.testBit_two_pow_self, Bool.and_true] at this
    exact this
  · intro h
    apply Nat.eq_of_testBit_eq
    intro j
    rw [Nat.testBit_and, Nat.testBit_two_pow]
    by_cases hj : i = j
    · subst hj; simp [h2, h]
    · simp [hj]

theorem alloc_iff (s : Section) : s.alloc = true ↔ Allocated s := by
  unfold Section.alloc Allocated
  rw [show SHF_ALLOC = 2 ^ 1 from rfl, hasFlag_testBit _ _ (by decide)]

theorem segPerm_bits (f : Nat) : (segPerm f).testBit 2 = true ∧ (segPerm f).testBit 1 = f.testBit 0 ∧
    (segPerm f).testBit 0 = f.testBit 2 ∧ segPerm f < 8 := by
  unfold segPerm
  rw [show SHF_WRITE = 2 ^ 0 from rfl, show SHF_EXECINSTR = 2 ^ 2 from rfl, hasFlag_testBit _ _ (by decide), hasFlag_testBit _ _ (by decide)]
  cases f.testBit 0 <;> cases f.testBit 2 <;> decide

variable {opts : Options} {ops : List Op} {sched : Sched} {w w' : Writer} {file : Bytes} {secs : List Section}

theorem loadsOf_eq {hdr : Nat} {st : LayoutState} (h : Laid w w' hdr st) : loadsOf w' = st.loads := by
  obtain ⟨ph, hph, hty, _⟩ := h.phs
  rw [h.loads]
  unfold loadsOf
  rw [hph, List.filter_cons, if_neg (by rw [hty]; decide)]
  rfl

/-- a written section comes from a placed one -/
theorem Run.source (h : Run opts ops sched w w' file secs) {i : Nat} {t : Section} (ht : secs[i]? = some t) :
    ∃ s, w'.sections[i]? = some s ∧ Finalized w' s t := by
  obtain ⟨s, h1, h2, _⟩ := h.finalized ht
  exact ⟨s, h1, h2⟩

/-- the null section has no flags -/
theorem Run.null (h : Run opts ops sched w w' file secs) (hf : FlagsOk ops) {t : Section} (ht : secs[0]? = some t) :
    ¬ Allocated t := by
  obtain ⟨hdr, st, hl⟩ := h.laid hf
  have hff := hl.facts h.hist.secFacts
  obtain ⟨s, hs, hfin⟩ := h.source ht
  obtain ⟨null, rest, hw, hnull⟩ := hff.head
  rw [hw] at hs
  cases hs
  have hk := (hff.known s (by rw [hw]; simp)).origin_of_ptr (by rw [hnull]; decide)
  have hk := origins_cases hk
  simp only [Section.origin, hnull, Prod.mk.injEq] at hk
  unfold Allocated
  rw [hfin.flags]
  simp [P.null, P.shstr, P.symstr, P.dynstr, P.interp, P.got, P.gotPlt, P.plt, P.sym, P.dynsym, P.dynamic, P.relaDyn, P.relaPlt,
      P.copyRel, P.hash, P.gnuHash] at hk
  rw [hk.2.2.2.1]; decide

/-- allocated sections in the list of placed sections -/
theorem Run.source_drop (h : Run opts ops sched w w' file secs) (hf : FlagsOk ops) {i : Nat} {t : Section} (ht : secs[i]? = some t)
    (hal : Allocated t) : ∃ k s, i = k + 1 ∧ (w'.sections.drop 1)[k]? = some s ∧ Finalized w' s t ∧ s.alloc = true := by
  obtain ⟨s, hs, hfin⟩ := h.source ht
  cases i with
  | zero => exact absurd hal (h.null hf ht)
  | succ k => exact ⟨k, s, rfl, by simpa [Nat.add_comm] using hs, hfin, by rw [← hfin.alloc]; exact (alloc_iff t).2 hal⟩

/-- **C37**: the room reserved for the program headers before the layout is exactly the room the
headers take in the end: the first section is placed right behind them, in the file and in memory,
no section lies over them, and `e_phnum` is their number. -/
theorem C37_program_headers_fit (h : Run opts ops sched w w' file secs) (hf : FlagsOk ops) (hd : NoDynamicPush ops)
    (hn : NamesFit w) (hlt : w'.programHeaders.length < 65536) :
    w'.eh.e_phnum = w'.programHeaders.length ∧
    w'.programHeaders.length = (loadsOf w').length + 3 ∧
    (∃ s, secs[1]? = some s ∧ Allocated s ∧ s.sh.sh_offset = 64 + 56 * w'.programHeaders.length ∧
      s.sh.sh_addr = 0x200000 + 64 + 56 * w'.programHeaders.length) ∧
    (∀ s ∈ secs.drop 1, 64 + 56 * w'.programHeaders.length ≤ s.sh.sh_offset) := by
  obtain ⟨hdr, st, hl⟩ := h.laid hf
  obtain ⟨w0, pn, h0, hI⟩ := h.hist.winv
  have hsf := h.hist.secFacts
  obtain ⟨_, _, h3, h4⟩ := hl.count hsf hI h0 hn hd
  have hhdr : hdr = 64 + 56 * w'.programHeaders.length := by rw [h4, sizeofHeader, sizeofProgramHeader]; omega
  refine ⟨?_, ?_, ?_, ?_⟩
  · rw [hl.phnum]; exact Nat.mod_eq_of_lt hlt
  · rw [h3, loadsOf_eq hl, hl.loads]
  · have hne : w'.sections.drop 1 ≠ [] := by
      obtain ⟨null, rest, hw, hnull⟩ := (hl.facts hsf).head
      obtain ⟨s, hs, hsp⟩ := (hl.facts hsf).has P.shstr (base_has _ _ (by simp))
      rw [hw] at hs ⊢
      rcases List.mem_cons.1 hs with rfl | hs
      · rw [hnull] at hsp; cases hsp
      · intro e; simp at e; rw [e] at hs; cases hs
    cases hw : w'.sections.drop 1 with
    | nil => exact absurd hw hne
    | cons s rest =>
      have hs1 : w'.sections[1]? = some s := by
        have := List.getElem?_drop (xs := w'.sections) (i := 1) (j := 0)
        rw [hw] at this; simpa using this.symm
      have hi1 : 1 < secs.length := by
        rw [h.secs_length]; exact (List.getElem?_eq_some_iff.1 hs1).1
      obtain ⟨s', hs', hfin, _⟩ := h.finalized (List.getElem?_eq_getElem hi1)
      rw [hs1] at hs'
      cases hs'
      obtain ⟨e1, e2, e3⟩ := hl.placed.head s (by rw [hw]; rfl)
      refine ⟨_, List.getElem?_eq_getElem hi1, ?_, ?_, ?_⟩
      · rw [← alloc_iff, hfin.alloc]; exact e2
      · rw [hfin.offset, e1, hhdr]
      · rw [hfin.addr, e3, hhdr]
        simp [roundTo, PAGE_ALIGNMENT]; omega
  · intro t ht
    obtain ⟨i, hi, rfl⟩ := List.getElem_of_mem ht
    have hget : secs[1 + i]? = some (secs.drop 1)[i] := by
      rw [List.getElem_drop, List.getElem?_eq_getElem]
    obtain ⟨s, hs, hfin⟩ := h.source hget
    have hm : s ∈ w'.sections.drop 1 := by
      rw [← List.getElem?_drop] at hs
      exact List.mem_of_getElem? hs
    rw [hfin.offset, ← hhdr]
    exact (hl.inv.secs s hm).1

/-- the demonstration link meets the hypotheses of `C37` -/
example : ∃ w w' f s, Run .default demoOps .rev w w' f s ∧ FlagsOk demoOps ∧ NoDynamicPush demoOps ∧ NamesFit w ∧
    w'.programHeaders.length < 65536 := by
  obtain ⟨w, w', f, s, h, hp⟩ := Run.of_runs (opts := .default) (ops := demoOps) (sched := .rev)
    (P := fun w w' _ _ => decide (w.shstr.totalLen < 2 ^ 32) && decide (w'.programHeaders.length < 65536)) Sched.rev_valid
    (by decide +kernel)
  simp only [Bool.and_eq_true, decide_eq_true_eq] at hp
  exact ⟨w, w', f, s, h, .of_all (by decide +kernel), .of_all (by decide +kernel), hp.1, hp.2⟩

/-- **C38**, the part that holds: different allocated sections of the output have disjoint address
ranges, in the order of the section header table, except that nothing is said about the end of
`.copyrel`, whose final size is set after the layout (`C38_copyrel_overlap_violated`). -/
theorem C38_sections_disjoint_partial (h : Run opts ops sched w w' file secs) (hf : FlagsOk ops) (i j : Nat) (a b : Section)
    (hij : i < j) (ha : secs[i]? = some a) (hb : secs[j]? = some b) (haa : Allocated a) (hba : Allocated b)
    (hc : a.kind ≠ .copyRel) : a.sh.sh_addr + a.sh.sh_size ≤ b.sh.sh_addr := by
  obtain ⟨hdr, st, hl⟩ := h.laid hf
  obtain ⟨i', s, rfl, hs, hfs, hsa⟩ := h.source_drop hf ha haa
  obtain ⟨j', t, rfl, ht, hft, hta⟩ := h.source_drop hf hb hba
  obtain ⟨hi1, rfl⟩ := List.getElem?_eq_some_iff.1 hs
  obtain ⟨hj1, rfl⟩ := List.getElem?_eq_some_iff.1 ht
  have := (List.pairwise_iff_getElem.1 hl.inv.secsAsc i' j' hi1 hj1 (by omega)).2 hsa hta
  rw [hfs.addr, hfs.size hc, hft.addr]
  exact this

/-- in the demonstration link `.text` and `.data` are such sections -/
example : ∃ w w' f s, Run .default demoOps .id w w' f s ∧ FlagsOk demoOps ∧
    ∃ (i j : Nat) (a b : Section), i < j ∧ s[i]? = some a ∧ s[j]? = some b ∧ Allocated a ∧ Allocated b ∧ a.kind ≠ .copyRel ∧
      a.sh.sh_size ≠ 0 ∧ b.sh.sh_size ≠ 0 := by
  obtain ⟨w, w', f, s, h, hp⟩ := Run.of_runs (opts := .default) (ops := demoOps) (sched := .id)
    (P := fun _ _ _ s => (List.range s.length).any fun j => (List.range j).any fun i => (s[i]?).any fun (a : Section) =>
      (s[j]?).any fun (b : Section) => decide (Allocated a ∧ Allocated b ∧ a.kind ≠ .copyRel ∧ a.sh.sh_size ≠ 0 ∧ b.sh.sh_size ≠ 0))
    Sched.id_valid (by decide +kernel)
  simp only [List.any_eq_true, Option.any_eq_true, decide_eq_true_eq, List.mem_range] at hp
  obtain ⟨j, _, i, hi, a, ha, b, hb, hc⟩ := hp
  exact ⟨w, w', f, s, h, .of_all (by decide +kernel), i, j, a, b, hi, ha, hb, hc⟩

/-- the ranges of two sections share an address -/
def overlaps (a b : Section) : Bool :=
  decide (a.sh.sh_addr < b.sh.sh_addr + b.sh.sh_size) && decide (b.sh.sh_addr < a.sh.sh_addr + a.sh.sh_size)

/-- **C38** is violated: in the demonstration link, which copies the library variable `environ`,
`.copyrel` and `.got` are allocated and overlap. -/
theorem C38_copyrel_overlap_violated : ∃ opts ops sched w w' file secs, Run opts ops sched w w' file secs ∧ FlagsOk ops ∧
    ∃ a b, a ∈ secs ∧ b ∈ secs ∧ nameOf w' a = some b!".copyrel" ∧ nameOf w' b = some b!".got" ∧
      Allocated a ∧ Allocated b ∧ overlaps a b = true := by
  obtain ⟨w, w', f, s, h, hp⟩ := Run.of_runs (opts := .default) (ops := demoOps) (sched := .id)
    (P := fun _ w' _ s => s.any fun a => s.any fun b => decide (nameOf w' a = some b!".copyrel") &&
      decide (nameOf w' b = some b!".got") && decide (Allocated a) && decide (Allocated b) && overlaps a b) Sched.id_valid
    (by decide +kernel)
  simp only [List.any_eq_true, Bool.and_eq_true, decide_eq_true_eq] at hp
  obtain ⟨a, ha, b, hb, ⟨⟨⟨h1, h2⟩, h3⟩, h4⟩, h5⟩ := hp
  exact ⟨_, _, _, w, w', f, s, h, .of_all (by decide +kernel), a, b, ha, hb, h1, h2, h3, h4, h5⟩

/-- **C40**: the segments the loader maps are page aligned in memory and in the file, the file part
is not longer than the memory part, and in the order of the table they lie one behind the other, in
memory and in the file, starting at `0x200000`. -/
theorem C40_load_segments (h : Run opts ops sched w w' file secs) (hf : FlagsOk ops) :
    (∀ ph ∈ loadsOf w', ph.p_vaddr % 4096 = 0 ∧ ph.p_offset % 4096 = 0 ∧ ph.p_align = 4096 ∧ ph.p_paddr = ph.p_vaddr ∧
      0x200000 ≤ ph.p_vaddr ∧ ph.p_filesz ≤ ph.p_memsz) ∧
    (loadsOf w').Pairwise (fun a b => a.p_vaddr + a.p_memsz ≤ b.p_vaddr ∧ a.p_offset + a.p_filesz ≤ b.p_offset) := by
  obtain ⟨hdr, st, hl⟩ := h.laid hf
  rw [loadsOf_eq hl]
  refine ⟨?_, hl.inv.loadsAsc⟩
  intro ph hph
  obtain ⟨_, h1, h2, h3, h4, h5, _, _, h6⟩ := hl.inv.loadsOk ph hph
  exact ⟨h1, h2, h3, h4, h5, h6⟩

/-- the demonstration link has three such segments -/
example : ∃ w w' f s, Run .default demoOps .id w w' f s ∧ FlagsOk demoOps ∧ (loadsOf w').length = 3 := by
  obtain ⟨w, w', f, s, h, hp⟩ := Run.of_runs (opts := .default) (ops := demoOps) (sched := .id)
    (P := fun _ w' _ _ => decide ((loadsOf w').length = 3)) Sched.id_valid (by decide +kernel)
  exact ⟨w, w', f, s, h, .of_all (by decide +kernel), of_decide_eq_true hp⟩

/-- **C41**, the part that holds: every allocated section lies in a segment the loader maps, from
its first address on, and, unless it is `.copyrel`, up to its last one; the segment is readable, and
writable or executable exactly when the section asks for it. What is missing: the end of `.copyrel`
(`C41_copyrel_outside_violated`). -/
theorem C41_covered_partial (h : Run opts ops sched w w' file secs) (hf : FlagsOk ops) (i : Nat) (s : Section)
    (hs : secs[i]? = some s) (ha : Allocated s) : ∃ ph ∈ loadsOf w',
      ph.p_vaddr ≤ s.sh.sh_addr ∧ s.sh.sh_addr ≤ ph.p_vaddr + ph.p_memsz ∧
      (s.kind ≠ .copyRel → s.sh.sh_addr + s.sh.sh_size ≤ ph.p_vaddr + ph.p_memsz) ∧
      ph.p_flags < 8 ∧ ph.p_flags.testBit 2 = true ∧
      (ph.p_flags.testBit 1 = true ↔ Writable s) ∧ (ph.p_flags.testBit 0 = true ↔ Executable s) := by
  obtain ⟨hdr, st, hl⟩ := h.laid hf
  obtain ⟨k, t, rfl, ht, hfs, hta⟩ := h.source_drop hf hs ha
  obtain ⟨hk, rfl⟩ := List.getElem?_eq_some_iff.1 ht
  obtain ⟨ph, hph, hin, _⟩ := hl.inv.cover ((w'.sections.drop 1).take k) _ ((w'.sections.drop 1).drop (k + 1))
    (by rw [List.getElem_cons_drop]; exact (List.take_append_drop k _).symm) hta
  obtain ⟨b1, b2, b3, b4⟩ := segPerm_bits (w'.sections.drop 1)[k].sh.sh_flags
  have h1 := hin.memLo
  have h2 := hin.memHi
  rw [loadsOf_eq hl]
  refine ⟨ph, hph, ?_, ?_, ?_, ?_, ?_, ?_, ?_⟩
  · rw [hfs.addr]; exact h1
  · rw [hfs.addr]; omega
  · intro hc; rw [hfs.addr, hfs.size hc]; exact h2
  · rw [hin.perm]; exact b4
  · rw [hin.perm]; exact b1
  · rw [hin.perm, b2, Writable, hfs.flags]
  · rw [hin.perm, b3, Executable, hfs.flags]

/-- in the demonstration link `.text` is such a section -/
example : ∃ w w' f s, Run .default demoOps .id w w' f s ∧ FlagsOk demoOps ∧
    ∃ (i : Nat) (a : Section), s[i]? = some a ∧ Allocated a ∧ a.kind ≠ .copyRel ∧ nameOf w' a = some b!".text" := by
  obtain ⟨w, w', f, s, h, hp⟩ := Run.of_runs (opts := .default) (ops := demoOps) (sched := .id)
    (P := fun _ w' _ s => (List.range s.length).any fun i => (s[i]?).any fun (a : Section) =>
      decide (Allocated a ∧ a.kind ≠ .copyRel ∧ nameOf w' a = some b!".text")) Sched.id_valid (by decide +kernel)
  simp only [List.any_eq_true, Option.any_eq_true, decide_eq_true_eq, List.mem_range] at hp
  obtain ⟨i, _, a, ha, hc⟩ := hp
  exact ⟨w, w', f, s, h, .of_all (by decide +kernel), i, a, ha, hc⟩

/-- a link that copies a large library variable -/
def bigCopyOps : List Op :=
  [ .sym (demoSym 0 0 0 0) none b!"table" demoPath (.named 1),
    .dynsym (demoSym STT_OBJECT 13 0x5678 0x3000) b!"table" demoPath (.named 22) ]

/-- **C41** is violated: a copied library variable can lie behind the end of every segment. -/
theorem C41_copyrel_outside_violated : ∃ opts ops sched w w' file secs, Run opts ops sched w w' file secs ∧ FlagsOk ops ∧
    ∃ a ∈ secs, Allocated a ∧ 0 < a.sh.sh_size ∧
      ∀ ph ∈ loadsOf w', ph.p_vaddr + ph.p_memsz < a.sh.sh_addr + a.sh.sh_size := by
  obtain ⟨w, w', f, s, h, hp⟩ := Run.of_runs (opts := .default) (ops := bigCopyOps) (sched := .id)
    (P := fun _ w' _ s => s.any fun a => decide (Allocated a) && decide (0 < a.sh.sh_size) &&
      (loadsOf w').all fun ph => decide (ph.p_vaddr + ph.p_memsz < a.sh.sh_addr + a.sh.sh_size)) Sched.id_valid
    (by decide +kernel)
  simp only [List.any_eq_true, Bool.and_eq_true, decide_eq_true_eq, List.all_eq_true] at hp
  obtain ⟨a, ha, ⟨h1, h2⟩, h3⟩ := hp
  exact ⟨_, _, _, w, w', f, s, h, .of_all (by decide +kernel), a, ha, h1, h2, h3⟩

/-- **C42**, the part that holds: for an allocated section with file contents, if no zero-fill
section other than `.copyrel` with the same flags stands before it, the loader maps its bytes at its
address: its distance from the start of its segment is the same in memory and in the file, and its
bytes lie in the file part of the segment. -/
theorem C42_mapped_partial (h : Run opts ops sched w w' file secs) (hf : FlagsOk ops) (i : Nat) (s : Section)
    (hs : secs[i]? = some s) (ha : Allocated s) (hb : s.sh.sh_type ≠ SHT_NOBITS)
    (hz : ∀ j t, j < i → secs[j]? = some t → t.sh.sh_flags = s.sh.sh_flags → t.kind ≠ .copyRel → t.sh.sh_type ≠ SHT_NOBITS) :
    ∃ ph ∈ loadsOf w', ph.p_vaddr ≤ s.sh.sh_addr ∧ ph.p_offset ≤ s.sh.sh_offset ∧
      s.sh.sh_addr - ph.p_vaddr = s.sh.sh_offset - ph.p_offset ∧
      s.sh.sh_offset + s.sh.sh_size ≤ ph.p_offset + ph.p_filesz := by
  obtain ⟨hdr, st, hl⟩ := h.laid hf
  obtain ⟨k, t, rfl, ht, hfs, hta⟩ := h.source_drop hf hs ha
  obtain ⟨hk, rfl⟩ := List.getElem?_eq_some_iff.1 ht
  obtain ⟨ph, hph, hin, he, _⟩ := hl.inv.cover ((w'.sections.drop 1).take k) _ ((w'.sections.drop 1).drop (k + 1))
    (by rw [List.getElem_cons_drop]; exact (List.take_append_drop k _).symm) hta
  have hbss : bssOf (w'.sections.drop 1)[k].sh.sh_flags ((w'.sections.drop 1).take k) = 0 := by
    unfold bssOf
    rw [List.sum_eq_zero_iff_forall_eq_nat]
    intro x hx
    obtain ⟨u, hu, rfl⟩ := List.mem_map.1 hx
    obtain ⟨hu1, hu2⟩ := List.mem_filter.1 hu
    obtain ⟨j, hj, rfl⟩ := List.getElem_of_mem hu1
    simp only [List.length_take] at hj
    simp only [List.getElem_take, beq_iff_eq] at hu2 ⊢
    have hj2 : (w'.sections.drop 1)[j]? = some (w'.sections.drop 1)[j] := List.getElem?_eq_getElem (by omega)
    rw [List.getElem?_drop] at hj2
    have hlen : 1 + j < secs.length := by
      rw [h.secs_length]; exact (List.getElem?_eq_some_iff.1 hj2).1
    obtain ⟨v, hv, hfv⟩ := h.source (List.getElem?_eq_getElem hlen)
    rw [hj2] at hv
    cases hv
    unfold Section.bss
    by_cases hc : (w'.sections.drop 1)[j].kind = .copyRel
    · rw [h.copyRel_empty (List.mem_of_getElem? hj2) hc]; simp
    · rw [if_neg]
      have := hz (1 + j) _ (by omega) (List.getElem?_eq_getElem hlen) (by rw [hfv.flags, hfs.flags]; exact hu2)
        (by rw [hfv.kind]; exact hc)
      rwa [hfv.type] at this
  have hnc : s.kind ≠ .copyRel := by
    intro hc
    rw [hfs.kind] at hc
    have hm : (w'.sections.drop 1)[k] ∈ w'.sections := List.mem_of_mem_drop (List.getElem_mem hk)
    have hkn := (hl.facts h.hist.secFacts).known _ hm
    have hp := hkn.copyRel_kind.1 hc
    have ho := origins_cases (hkn.origin_of_ptr (by rw [hp]; decide))
    simp only [Section.origin, Prod.mk.injEq, hp] at ho
    simp [P.null, P.shstr, P.symstr, P.dynstr, P.interp, P.got, P.gotPlt, P.plt, P.sym, P.dynsym, P.dynamic, P.relaDyn, P.relaPlt,
      P.copyRel, P.hash, P.gnuHash] at ho
    apply hb
    rw [hfs.type]
    simpa using ho.2.2.1
  have hdisk : (w'.sections.drop 1)[k].sizeOnDisk = (w'.sections.drop 1)[k].sh.sh_size := by
    unfold Section.sizeOnDisk; rw [if_pos (by rw [← hfs.type]; exact hb)]
  have h1 := hin.memLo
  have h2 := hin.fileLo
  have h3 := hin.fileHi
  rw [loadsOf_eq hl]
  refine ⟨ph, hph, ?_, ?_, ?_, ?_⟩
  · rw [hfs.addr]; exact h1
  · rw [hfs.offset]; exact h2
  · rw [hfs.addr, hfs.offset]; omega
  · rw [hfs.offset, hfs.size hnc, ← hdisk]; exact h3

/-- in the demonstration link `.text` is such a section -/
example : ∃ w w' f s, Run .default demoOps .id w w' f s ∧ FlagsOk demoOps ∧
    ∃ i t, s[i]? = some t ∧ nameOf w' t = some b!".text" ∧ Allocated t ∧ t.sh.sh_type ≠ SHT_NOBITS ∧
      ∀ (j : Nat) (u : Section), j < i → s[j]? = some u → u.sh.sh_flags = t.sh.sh_flags → u.kind ≠ .copyRel → u.sh.sh_type ≠ SHT_NOBITS := by
  obtain ⟨w, w', f, s, h, hp⟩ := Run.of_runs (opts := .default) (ops := demoOps) (sched := .id)
    (P := fun _ w' _ s => (List.range s.length).any fun i => (s[i]?).any fun t => decide (nameOf w' t = some b!".text") &&
      decide (Allocated t) && decide (t.sh.sh_type ≠ SHT_NOBITS) && (List.range i).all fun j => (s[j]?).all fun (u : Section) =>
        decide (u.sh.sh_flags = t.sh.sh_flags → u.kind ≠ .copyRel → u.sh.sh_type ≠ SHT_NOBITS)) Sched.id_valid (by decide +kernel)
  simp only [List.any_eq_true, Option.any_eq_true, Bool.and_eq_true, decide_eq_true_eq, List.all_eq_true, List.mem_range,
    Option.all_eq_true] at hp
  obtain ⟨i, _, t, ht, ⟨⟨h1, h2⟩, h3⟩, h4⟩ := hp
  exact ⟨w, w', f, s, h, .of_all (by decide +kernel), i, t, ht, h1, h2, h3, fun j u hj hu => h4 j hj u hu⟩

/-- a link with a zero-fill section of larger alignment than the data -/
def bssFirstOps : List Op :=
  [ .push b!".data" (demoSh SHT_PROGBITS 3 8 8) (some [1, 2, 3, 4, 5, 6, 7, 8]) ⟨16, 0⟩,
    .push b!".bss" (demoSh SHT_NOBITS 3 32 32) none ⟨17, 0⟩ ]

/-- **C42** is violated: with a zero-fill section of larger alignment, every segment that contains
the address of `.data` maps other bytes there than those of `.data`. -/
theorem C42_mapped_violated : ∃ opts ops sched w w' file secs, Run opts ops sched w w' file secs ∧ FlagsOk ops ∧
    ∃ s ∈ secs, nameOf w' s = some b!".data" ∧ Allocated s ∧ s.sh.sh_type ≠ SHT_NOBITS ∧ s.sh.sh_size = 8 ∧
      (∃ ph ∈ loadsOf w', ph.p_vaddr ≤ s.sh.sh_addr ∧ s.sh.sh_addr + 8 ≤ ph.p_vaddr + ph.p_memsz) ∧
      ∀ ph ∈ loadsOf w', ph.p_vaddr ≤ s.sh.sh_addr → s.sh.sh_addr < ph.p_vaddr + ph.p_memsz →
        ph.p_offset + (s.sh.sh_addr - ph.p_vaddr) ≠ s.sh.sh_offset := by
  obtain ⟨w, w', f, s, h, hp⟩ := Run.of_runs (opts := .default) (ops := bssFirstOps) (sched := .id)
    (P := fun _ w' _ s => s.any fun s => decide (nameOf w' s = some b!".data") && decide (Allocated s) &&
      decide (s.sh.sh_type ≠ SHT_NOBITS) && decide (s.sh.sh_size = 8) &&
      ((loadsOf w').any fun ph => decide (ph.p_vaddr ≤ s.sh.sh_addr ∧ s.sh.sh_addr + 8 ≤ ph.p_vaddr + ph.p_memsz)) &&
      (loadsOf w').all fun ph => decide (ph.p_vaddr ≤ s.sh.sh_addr → s.sh.sh_addr < ph.p_vaddr + ph.p_memsz →
        ph.p_offset + (s.sh.sh_addr - ph.p_vaddr) ≠ s.sh.sh_offset)) Sched.id_valid (by decide +kernel)
  simp only [List.any_eq_true, Bool.and_eq_true, decide_eq_true_eq, List.all_eq_true] at hp
  obtain ⟨t, ht, ⟨⟨⟨⟨h1, h2⟩, h3⟩, h4⟩, h5⟩, h6⟩ := hp
  exact ⟨_, _, _, w, w', f, s, h, .of_all (by decide +kernel), t, ht, h1, h2, h3, h4, h5, h6⟩

/-! ### C43 -/

theorem dvd_memOf {d f : Nat} {l : List Section} (h : ∀ t ∈ l, t.sh.sh_flags = f → d ∣ t.sh.sh_size) : d ∣ memOf f l := by
  induction l with
  | nil => exact Nat.dvd_zero d
  | cons a l ih =>
    rw [← List.singleton_append, memOf_append, memOf_singleton]
    refine Nat.dvd_add ?_ (ih fun t ht => h t (by simp [ht]))
    split
    · next he => exact h a (by simp) he
    · exact Nat.dvd_zero d

/-- **C43**, the part that holds: the address of an allocated section is a multiple of its alignment
if the alignment divides the page size, the sizes of all earlier sections with the same flags
(`.copyrel` excepted) and, when the section shares the segment of the headers, the size of the
headers. What is missing: the linker inserts no padding, neither between sections nor between the
input sections of one section (`C43_section_alignment_violated`, `C43_input_alignment_violated`). -/
theorem C43_section_alignment_partial (h : Run opts ops sched w w' file secs) (hf : FlagsOk ops) (hd : NoDynamicPush ops)
    (hn : NamesFit w) (i : Nat) (s : Section) (hs : secs[i]? = some s) (ha : Allocated s)
    (hpage : s.sh.sh_addralign ∣ 4096)
    (hbefore : ∀ j t, j < i → secs[j]? = some t → t.sh.sh_flags = s.sh.sh_flags → t.kind ≠ .copyRel →
      s.sh.sh_addralign ∣ t.sh.sh_size)
    (hhead : ∀ t, secs[1]? = some t → t.sh.sh_flags = s.sh.sh_flags →
      s.sh.sh_addralign ∣ 64 + 56 * w'.programHeaders.length) :
    s.sh.sh_addralign ∣ s.sh.sh_addr := by
  obtain ⟨hdr, st, hl⟩ := h.laid hf
  obtain ⟨w0, pn, h0, hI⟩ := h.hist.winv
  obtain ⟨_, _, _, hc4⟩ := hl.count h.hist.secFacts hI h0 hn hd
  have hhdr : hdr = 64 + 56 * w'.programHeaders.length := by rw [hc4, sizeofHeader, sizeofProgramHeader]; omega
  obtain ⟨k, t, rfl, ht, hfs, hta⟩ := h.source_drop hf hs ha
  obtain ⟨hk, rfl⟩ := List.getElem?_eq_some_iff.1 ht
  obtain ⟨v, hv, he⟩ := hl.placed.secs ((w'.sections.drop 1).take k) _ ((w'.sections.drop 1).drop (k + 1))
    (by rw [List.getElem_cons_drop]; exact (List.take_append_drop k _).symm) hta
  have src : ∀ j (hj : j < (w'.sections.drop 1).length), ∃ u, secs[1 + j]? = some u ∧ Finalized w' (w'.sections.drop 1)[j] u := by
    intro j hj
    have hj2 : (w'.sections.drop 1)[j]? = some (w'.sections.drop 1)[j] := List.getElem?_eq_getElem (by omega)
    rw [List.getElem?_drop] at hj2
    have hlen : 1 + j < secs.length := by
      rw [h.secs_length]; exact (List.getElem?_eq_some_iff.1 hj2).1
    obtain ⟨v, hv, hfv⟩ := h.source (List.getElem?_eq_getElem hlen)
    rw [hj2] at hv
    cases hv
    exact ⟨_, List.getElem?_eq_getElem hlen, hfv⟩
  rw [hfs.addr, he]
  refine Nat.dvd_add (Nat.dvd_add ?_ ?_) ?_
  · exact Nat.dvd_trans hpage (Nat.dvd_of_mod_eq_zero hv)
  · unfold headRoom
    split
    · next hh =>
      rw [hhdr]
      obtain ⟨u, hu, hfu⟩ := src 0 (by omega)
      refine hhead u hu ?_
      rw [hfu.flags, hfs.flags]
      rw [List.head?_eq_getElem?, List.getElem?_eq_getElem (by omega)] at hh
      simpa using hh
    · exact Nat.dvd_zero _
  · apply dvd_memOf
    intro u hu hfl
    obtain ⟨j, hj, rfl⟩ := List.getElem_of_mem hu
    simp only [List.length_take] at hj
    simp only [List.getElem_take] at hfl ⊢
    obtain ⟨u, hu', hfu⟩ := src j (by omega)
    by_cases hc : (w'.sections.drop 1)[j].kind = .copyRel
    · rw [h.copyRel_empty (List.mem_of_mem_drop (List.getElem_mem _)) hc]; exact Nat.dvd_zero _
    · have := hbefore (1 + j) u (by omega) hu' (by rw [hfu.flags, hfs.flags]; exact hfl) (by rw [hfu.kind]; exact hc)
      rwa [hfu.size (by rw [hfu.kind]; exact hc)] at this

/-- in the demonstration link `.dynamic` is such a section -/
example : ∃ w w' f s, Run .default demoOps .id w w' f s ∧ FlagsOk demoOps ∧ NoDynamicPush demoOps ∧ NamesFit w ∧
    ∃ i t, s[i]? = some t ∧ nameOf w' t = some b!".got" ∧ Allocated t ∧ t.sh.sh_addralign = 8 ∧ t.sh.sh_addralign ∣ 4096 ∧
      (∀ (j : Nat) (u : Section), j < i → s[j]? = some u → u.sh.sh_flags = t.sh.sh_flags → u.kind ≠ .copyRel → t.sh.sh_addralign ∣ u.sh.sh_size) ∧
      (∀ u, s[1]? = some u → u.sh.sh_flags = t.sh.sh_flags → t.sh.sh_addralign ∣ 64 + 56 * w'.programHeaders.length) := by
  obtain ⟨w, w', f, s, h, hp⟩ := Run.of_runs (opts := .default) (ops := demoOps) (sched := .id)
    (P := fun w w' _ s => decide (w.shstr.totalLen < 2 ^ 32) && (List.range s.length).any fun i => (s[i]?).any fun t =>
      decide (nameOf w' t = some b!".got") && decide (Allocated t) && decide (t.sh.sh_addralign = 8) &&
      decide (t.sh.sh_addralign ∣ 4096) && ((List.range i).all fun j => (s[j]?).all fun (u : Section) =>
        decide (u.sh.sh_flags = t.sh.sh_flags → u.kind ≠ .copyRel → t.sh.sh_addralign ∣ u.sh.sh_size)) &&
      (s[1]?).all fun (u : Section) => decide (u.sh.sh_flags = t.sh.sh_flags → t.sh.sh_addralign ∣ 64 + 56 * w'.programHeaders.length))
    Sched.id_valid (by decide +kernel)
  simp only [List.any_eq_true, Option.any_eq_true, Bool.and_eq_true, decide_eq_true_eq, List.all_eq_true, List.mem_range,
    Option.all_eq_true] at hp
  obtain ⟨hn, i, _, t, ht, ⟨⟨⟨⟨h1, h2⟩, h3⟩, h4⟩, h5⟩, h6⟩ := hp
  exact ⟨w, w', f, s, h, .of_all (by decide +kernel), .of_all (by decide +kernel), hn, i, t, ht, h1, h2, h3, h4,
    fun j u hj hu => h5 j hj u hu, fun u hu => h6 u hu⟩

/-- two sections and two objects with code of odd length -/
def oddCodeOps : List Op :=
  [ .push b!".text" (demoSh SHT_PROGBITS 6 5 16) (some [0x90, 0x90, 0x90, 0x90, 0xc3]) ⟨16, 0⟩,
    .push b!".text.hot" (demoSh SHT_PROGBITS 6 5 16) (some [0x90, 0x90, 0x90, 0x90, 0xc3]) ⟨17, 0⟩,
    .push b!".text" (demoSh SHT_PROGBITS 6 5 16) (some [0x90, 0x90, 0x90, 0x90, 0xc3]) ⟨16, 1⟩,
    .sym (demoSym STT_FUNC 1 0 5) (some ⟨16, 1⟩) b!"f" demoPath (.named 1) ]

/-- **C43** is violated for sections: a section need not be placed at a multiple of its alignment. -/
theorem C43_section_alignment_violated : ∃ opts ops sched w w' file secs, Run opts ops sched w w' file secs ∧ FlagsOk ops ∧
    ∃ s ∈ secs, Allocated s ∧ s.sh.sh_addralign = 16 ∧ ¬ s.sh.sh_addralign ∣ s.sh.sh_addr := by
  obtain ⟨w, w', f, s, h, hp⟩ := Run.of_runs (opts := .default) (ops := oddCodeOps) (sched := .id)
    (P := fun _ w' _ s => s.any fun s => decide (Allocated s) && decide (s.sh.sh_addralign = 16) &&
      decide (¬ s.sh.sh_addralign ∣ s.sh.sh_addr)) Sched.id_valid (by decide +kernel)
  simp only [List.any_eq_true, Bool.and_eq_true, decide_eq_true_eq] at hp
  obtain ⟨t, ht, ⟨h1, h2⟩, h3⟩ := hp
  exact ⟨_, _, _, w, w', f, s, h, .of_all (by decide +kernel), t, ht, h1, h2, h3⟩

/-- **C43** is violated for input sections: the symbol `f`, defined at offset 0 of an input section
aligned to 16, ends up at an odd address. -/
theorem C43_input_alignment_violated : ∃ opts ops sched w w' file secs, Run opts ops sched w w' file secs ∧ FlagsOk ops ∧
    (∃ sh d r y, Op.push b!".text" sh (some d) r ∈ ops ∧ sh.sh_addralign = 16 ∧ sh.sh_size = d.length ∧
      Op.sym (demoSym STT_FUNC 1 0 5) (some r) b!"f" demoPath (.named 1) ∈ ops ∧
      w'.symtab.get (.named 1) = some y ∧ y.sym.st_value % 2 = 1) := by
  obtain ⟨w, w', f, s, h, hp⟩ := Run.of_runs (opts := .default) (ops := oddCodeOps) (sched := .id)
    (P := fun _ w' _ s => (w'.symtab.get (.named 1)).any fun (y : Symbol) => decide (y.sym.st_value % 2 = 1)) Sched.id_valid (by decide +kernel)
  simp only [Option.any_eq_true, decide_eq_true_eq] at hp
  obtain ⟨y, hy, hy'⟩ := hp
  exact ⟨_, oddCodeOps, _, w, w', f, s, h, .of_all (by decide +kernel), demoSh SHT_PROGBITS 6 5 16, [0x90, 0x90, 0x90, 0x90, 0xc3], ⟨16, 1⟩, y, by decide +kernel, rfl, rfl, by decide +kernel, hy, hy'⟩

/-! ### C44 and C45 -/

/-- a program header with the place and size of a section -/
def Describes (ph : ProgramHeader) (s : Section) : Prop :=
  ph.p_vaddr = s.sh.sh_addr ∧ ph.p_paddr = s.sh.sh_addr ∧ ph.p_offset = s.sh.sh_offset ∧
  ph.p_filesz = s.sh.sh_size ∧ ph.p_memsz = s.sh.sh_size

theorem Laid.special (h : Run opts ops sched w w' file secs) (hd : NoDynamicPush ops) (hn : NamesFit w)
    {hdr : Nat} {st : LayoutState} (hl : Laid w w' hdr st) {ty p q : Nat} (hty : ty = PT_INTERP ∧ p = P.interp ∧ q = P.dynsym ∨
      ty = PT_DYNAMIC ∧ p = P.dynamic ∧ q = P.copyRel)
    (hlt : ∀ s t, s ∈ w'.sections → t ∈ w'.sections → s.ptr = p → t.ptr = q → s.sh.sh_addralign < t.sh.sh_addralign) :
    ∃ ph, w'.programHeaders.filter (fun ph => ph.p_type == ty) = [ph] ∧
      (∃ s ∈ secs, nameOf w' s = some (ptrName p)) ∧
      ∀ s ∈ secs, nameOf w' s = some (ptrName p) → Describes ph s := by
  obtain ⟨w0, pn, h0, hI⟩ := h.hist.winv
  have hsf := h.hist.secFacts
  have hff := hl.facts hsf
  obtain ⟨c1, c2, _, _⟩ := hl.count hsf hI h0 hn hd
  obtain ⟨ph0, hph0, hty0, _⟩ := hl.phs
  have hpm : p ∈ (baseIdents opts.hashStyle).map (·.1) := by
    apply base_has; rcases hty with ⟨_, rfl, _⟩ | ⟨_, rfl, _⟩ <;> simp
  have hqm : q ∈ (baseIdents opts.hashStyle).map (·.1) := by
    apply base_has; rcases hty with ⟨_, _, rfl⟩ | ⟨_, _, rfl⟩ <;> simp
  have hp16 : p < P.first := by rcases hty with ⟨_, rfl, _⟩ | ⟨_, rfl, _⟩ <;> decide
  have hq16 : q < P.first := by rcases hty with ⟨_, _, rfl⟩ | ⟨_, _, rfl⟩ <;> decide
  have hfil : w'.programHeaders.filter (fun ph => ph.p_type == ty) = st.phs.filter fun ph => ph.p_type == ty := by
    rw [hph0, List.filter_cons, if_neg]
    rw [hty0]; rcases hty with ⟨rfl, _⟩ | ⟨rfl, _⟩ <;> decide
  have hone : (st.phs.filter fun ph => ph.p_type == ty).length = 1 := by
    rcases hty with ⟨rfl, _⟩ | ⟨rfl, _⟩
    · exact c2
    · exact c1
  obtain ⟨ph, hph⟩ := List.length_eq_one_iff.1 hone
  have hmem : ph ∈ st.phs ∧ ph.p_type = ty := by
    have : ph ∈ st.phs.filter fun ph => ph.p_type == ty := by rw [hph]; simp
    simpa using this
  obtain ⟨a, s, b, old, hsp, hspec, hold⟩ := hl.sinv.src ph hmem.1 (by
    unfold isLoad; rw [hmem.2]; rcases hty with ⟨rfl, _⟩ | ⟨rfl, _⟩ <;> decide)
  have hsm1 : s ∈ w'.sections.drop 1 := by rw [hsp]; simp
  have hsm : s ∈ w'.sections := List.mem_of_mem_drop hsm1
  have hpt := hl.pType_iff hsf hI h0 hn hd hsm
  have hptr : s.ptr = p := by
    unfold specialOf at hspec
    split at hspec
    · cases hspec
    next t he =>
      simp only [List.mem_singleton] at hspec
      have : t = ty := by rw [← hmem.2, hspec]
      rw [this] at he
      rcases hty with ⟨rfl, rfl, _⟩ | ⟨rfl, rfl, _⟩
      · exact hpt.2.1 he
      · exact hpt.1.1 he
  obtain ⟨f1, f2⟩ : s.sh.sh_type ≠ SHT_NOBITS ∧ (s.sh.sh_flags = 2 ∧ p = P.interp ∨ s.sh.sh_flags = 3 ∧ p = P.dynamic) := by
    have ho := origins_cases ((hff.known s hsm).origin_of_ptr (by rw [hptr]; exact hp16))
    simp only [Section.origin, Prod.mk.injEq, hptr] at ho
    rcases hty with ⟨_, rfl, _⟩ | ⟨_, rfl, _⟩ <;>
    simp [P.null, P.shstr, P.symstr, P.dynstr, P.interp, P.got, P.gotPlt, P.plt, P.sym, P.dynsym, P.dynamic, P.relaDyn, P.relaPlt,
      P.copyRel, P.hash, P.gnuHash] at ho <;>
    simp [ho, SHT_PROGBITS, SHT_DYNAMIC, SHT_NOBITS, P.interp, P.dynamic]
  have halloc : s.alloc = true := by
    rw [alloc_iff, Allocated]; rcases f2 with ⟨e, _⟩ | ⟨e, _⟩ <;> rw [e] <;> decide
  have hbefore : ∃ t ∈ a, t.sh.sh_flags = s.sh.sh_flags := by
    obtain ⟨t, ht, htp⟩ := hff.has q hqm
    have htf : t.sh.sh_flags = s.sh.sh_flags := by
      have ho := origins_cases ((hff.known t ht).origin_of_ptr (by rw [htp]; exact hq16))
      simp only [Section.origin, Prod.mk.injEq, htp] at ho
      rcases hty with ⟨_, rfl, rfl⟩ | ⟨_, rfl, rfl⟩ <;>
      simp [P.null, P.shstr, P.symstr, P.dynstr, P.interp, P.got, P.gotPlt, P.plt, P.sym, P.dynsym, P.dynamic, P.relaDyn, P.relaPlt,
        P.copyRel, P.hash, P.gnuHash] at ho f2 <;>
      simp [ho, f2]
    refine ⟨t, ?_, htf⟩
    have hlt' := hlt s t hsm ht hptr htp
    have ht1 : t ∈ w'.sections.drop 1 := by
      obtain ⟨null, rest, hw, hnull⟩ := hff.head
      rw [hw] at ht ⊢
      rcases List.mem_cons.1 ht with rfl | ht
      · rw [hnull] at htp; rcases hty with ⟨_, _, rfl⟩ | ⟨_, _, rfl⟩ <;> exact absurd htp (by decide)
      · simpa using ht
    rw [hsp] at ht1
    rcases List.mem_append.1 ht1 with h1 | h1
    · exact h1
    · exfalso
      rcases List.mem_cons.1 h1 with rfl | h1
      · omega
      · have hsort := h.sorted
        rw [hsp, List.pairwise_append] at hsort
        have := (List.pairwise_cons.1 hsort.2.1).1 t h1
        unfold sectionLe sectionCmp at this
        rw [htf, Nat.compare_eq_eq.2 rfl] at this
        simp only [Nat.compare_eq_lt.2 hlt'] at this
        simp [Ordering.swap] at this
  have hold := hold halloc hbefore
  have hdisk : s.sizeOnDisk = s.sh.sh_size := by unfold Section.sizeOnDisk; rw [if_pos f1]
  have hph' : ph.p_vaddr = s.sh.sh_addr ∧ ph.p_paddr = s.sh.sh_addr ∧ ph.p_offset = s.sh.sh_offset ∧
      ph.p_filesz = s.sh.sh_size ∧ ph.p_memsz = s.sh.sh_size := by
    unfold specialOf at hspec
    split at hspec
    · cases hspec
    · simp only [List.mem_singleton] at hspec
      rw [hspec]
      exact ⟨hold, hold, rfl, hdisk, rfl⟩
  have hname : ∀ t ∈ w'.sections, nameOf w t = some (ptrName p) ↔ t.ptr = p := fun t ht => hl.name_iff hsf hI h0 hn ht hpm
  refine ⟨ph, by rw [hfil, hph], ?_, ?_⟩
  · obtain ⟨i, hi, hsi⟩ := List.getElem_of_mem hsm
    have hi' : i < secs.length := by rw [h.secs_length]; exact hi
    obtain ⟨v, hv, hfv⟩ := h.source (List.getElem?_eq_getElem hi')
    rw [List.getElem?_eq_getElem hi, hsi] at hv
    cases hv
    refine ⟨_, List.getElem_mem hi', ?_⟩
    have := (hname _ hsm).2 hptr
    unfold nameOf at this ⊢
    rw [hfv.name, hl.shstr]; exact this
  · intro t ht hnt
    obtain ⟨i, hi, rfl⟩ := List.getElem_of_mem ht
    obtain ⟨v, hv, hfv⟩ := h.source (List.getElem?_eq_getElem hi)
    have hvm := List.mem_of_getElem? hv
    have hvp : v.ptr = p := by
      apply (hname v hvm).1
      unfold nameOf at hnt ⊢
      rw [← hfv.name, ← hl.shstr]; exact hnt
    have hvs : v = s := find_nodup hff.nodup hvm hsm hvp hptr
    subst hvs
    have hnc : (secs[i]).kind ≠ .copyRel := by
      rw [hfv.kind]
      intro hc
      have := (hff.known v hvm).copyRel_kind.1 hc
      rw [hptr] at this
      rcases hty with ⟨_, rfl, _⟩ | ⟨_, rfl, _⟩ <;> exact absurd this (by decide)
    unfold Describes
    rw [hfv.addr, hfv.offset, hfv.size hnc]
    exact hph'

/-- **C44**, the part that holds: there is exactly one `PT_INTERP` and exactly one `PT_DYNAMIC` header, they carry address,
file offset and size of `.interp` and `.dynamic`, and they come before every `PT_LOAD`, provided no
input section is named `.interp` or `.dynamic`. What is missing: an input section of such a name may
move the section to the front of its segment, where the header gets a stale address
(`C44_interp_address_violated`). -/
theorem C44_interp_dynamic_partial (h : Run opts ops sched w w' file secs) (hf : FlagsOk ops) (hd : NoDynamicPush ops)
    (hn : NamesFit w) (hi : pushesOf b!".interp" ops = []) (hy : pushesOf b!".dynamic" ops = []) :
    (∃ ph, w'.programHeaders.filter (fun ph => ph.p_type == 3) = [ph] ∧
      (∃ s ∈ secs, nameOf w' s = some b!".interp") ∧ ∀ s ∈ secs, nameOf w' s = some b!".interp" → Describes ph s) ∧
    (∃ ph, w'.programHeaders.filter (fun ph => ph.p_type == 2) = [ph] ∧
      (∃ s ∈ secs, nameOf w' s = some b!".dynamic") ∧ ∀ s ∈ secs, nameOf w' s = some b!".dynamic" → Describes ph s) ∧
    (∃ special, w'.programHeaders = special ++ loadsOf w' ∧ special.length = 3 ∧ ∀ ph ∈ special, ph.p_type ≠ 1) := by
  obtain ⟨hdr, st, hl⟩ := h.laid hf
  obtain ⟨w0, pn, h0, hI⟩ := h.hist.winv
  have hsf := h.hist.secFacts
  have hff := hl.facts hsf
  have hal : ∀ s ∈ w'.sections, (s.ptr = P.dynsym → 8 ≤ s.sh.sh_addralign) ∧ (s.ptr = P.copyRel → 64 ≤ s.sh.sh_addralign) ∧
      (s.ptr = P.interp → s.sh.sh_addralign = 1) ∧ (s.ptr = P.dynamic → s.sh.sh_addralign = 8) := by
    intro s hs
    obtain ⟨t, ht, he⟩ := hff.tags s hs
    simp only [tag, Prod.mk.injEq] at he
    obtain ⟨a1, a2, a3, a4⟩ := hI.own_align h0 ht
    rw [he.1, he.2.2.2.2.2.2.1]
    exact ⟨a1, a2, fun e => a3 e hi, fun e => a4 e hy⟩
  refine ⟨?_, ?_, ?_⟩
  · refine Laid.special h hd hn hl (ty := PT_INTERP) (p := P.interp) (q := P.dynsym) (.inl ⟨rfl, rfl, rfl⟩) ?_
    intro s t hs ht h1 h2
    have e1 := (hal s hs).2.2.1 h1
    have e2 := (hal t ht).1 h2
    omega
  · refine Laid.special h hd hn hl (ty := PT_DYNAMIC) (p := P.dynamic) (q := P.copyRel) (.inr ⟨rfl, rfl, rfl⟩) ?_
    intro s t hs ht h1 h2
    have e1 := (hal s hs).2.2.2 h1
    have e2 := (hal t ht).2.1 h2
    omega
  · obtain ⟨sp, ld, h1, h2, h3⟩ := hl.inv.shape
    obtain ⟨ph0, hph0, hty0, _⟩ := hl.phs
    have hld : loadsOf w' = ld := by
      rw [loadsOf_eq hl, hl.loads, h1, List.filter_append, List.filter_eq_nil_iff.2, List.filter_eq_self.2 h3]
      · rfl
      · intro a ha; rw [h2 a ha]; simp
    obtain ⟨_, _, c3, _⟩ := hl.count hsf hI h0 hn hd
    refine ⟨ph0 :: sp, ?_, ?_, ?_⟩
    · rw [hld, hph0, h1]; rfl
    · rw [← hl.loads, ← loadsOf_eq hl, hld, hph0, h1] at c3
      simp only [List.length_cons, List.length_append] at c3 ⊢
      omega
    · intro ph hph
      rcases List.mem_cons.1 hph with rfl | hph
      · rw [hty0]; decide
      · have := h2 ph hph
        unfold isLoad at this
        simpa [PT_LOAD] using this

/-- the demonstration link meets the hypotheses of `C44` -/
example : ∃ w w' f s, Run .default demoOps .rev w w' f s ∧ FlagsOk demoOps ∧ NoDynamicPush demoOps ∧ NamesFit w ∧
    pushesOf b!".interp" demoOps = [] ∧ pushesOf b!".dynamic" demoOps = [] := by
  obtain ⟨w, w', f, s, h, hp⟩ := Run.of_runs (opts := .default) (ops := demoOps) (sched := .rev)
    (P := fun w _ _ _ => decide (w.shstr.totalLen < 2 ^ 32)) Sched.rev_valid (by decide +kernel)
  exact ⟨w, w', f, s, h, .of_all (by decide +kernel), .of_all (by decide +kernel), of_decide_eq_true (p := w.shstr.totalLen < 2 ^ 32) hp, by decide +kernel, by decide +kernel⟩

/-- an input object brings its own, strongly aligned, `.interp` -/
def ownInterpOps : List Op :=
  demoOps ++ [ .push b!".interp" (demoSh SHT_PROGBITS 2 8 64) (some [47, 108, 100, 46, 115, 111, 0, 0]) ⟨4, 1⟩ ]

/-- **C44** is violated: the `PT_INTERP` header does not give the address of `.interp`. -/
theorem C44_interp_address_violated : ∃ opts ops sched w w' file secs, Run opts ops sched w w' file secs ∧ FlagsOk ops ∧
    NoDynamicPush ops ∧ NamesFit w ∧ ∃ ph s, ph ∈ w'.programHeaders ∧ ph.p_type = 3 ∧ s ∈ secs ∧
      nameOf w' s = some b!".interp" ∧ ph.p_vaddr ≠ s.sh.sh_addr := by
  obtain ⟨w, w', f, s, h, hp⟩ := Run.of_runs (opts := .default) (ops := ownInterpOps) (sched := .id)
    (P := fun w w' _ s => decide (w.shstr.totalLen < 2 ^ 32) && w'.programHeaders.any fun ph => s.any fun s => decide (ph.p_type = 3 ∧
      nameOf w' s = some b!".interp" ∧ ph.p_vaddr ≠ s.sh.sh_addr)) Sched.id_valid (by decide +kernel)
  simp only [List.any_eq_true, Bool.and_eq_true, decide_eq_true_eq] at hp
  obtain ⟨hn, ph, h1, t, h2, h3, h4, h5⟩ := hp
  exact ⟨_, _, _, w, w', f, s, h, .of_all (by decide +kernel), .of_all (by decide +kernel), hn, ph, t, h1, h3, h2, h4, h5⟩

/-- **C45**: the first program header is `PT_PHDR` and gives the place of the table in the file and in
memory, and the first segment maps the start of the file, headers included, at `0x200000`. -/
theorem C45_phdr (h : Run opts ops sched w w' file secs) (hf : FlagsOk ops) (hd : NoDynamicPush ops) (hn : NamesFit w) :
    ∃ ph rest ld lds, w'.programHeaders = ph :: rest ∧ ph.p_type = 6 ∧ ph.p_offset = 64 ∧ ph.p_vaddr = 0x200000 + 64 ∧
      ph.p_paddr = ph.p_vaddr ∧ ph.p_filesz = 56 * w'.eh.e_phnum ∧ ph.p_memsz = 56 * w'.eh.e_phnum ∧
      (∀ p ∈ rest, p.p_type ≠ 6) ∧
      loadsOf w' = ld :: lds ∧ ld.p_offset = 0 ∧ ld.p_vaddr = 0x200000 ∧ 64 + 56 * w'.programHeaders.length ≤ ld.p_filesz ∧
      ld.p_filesz ≤ ld.p_memsz := by
  obtain ⟨hdr, st, hl⟩ := h.laid hf
  obtain ⟨w0, pn, h0, hI⟩ := h.hist.winv
  have hsf := h.hist.secFacts
  obtain ⟨_, _, _, h4⟩ := hl.count hsf hI h0 hn hd
  obtain ⟨ph, hph, e1, e2, e3, e4, e5, e6, e7, e8⟩ := hl.phs
  have hne : w'.sections.drop 1 ≠ [] := by
    obtain ⟨null, rest, hw, hnull⟩ := (hl.facts hsf).head
    obtain ⟨s, hs, hsp⟩ := (hl.facts hsf).has P.shstr (base_has _ _ (by simp))
    rw [hw] at hs ⊢
    rcases List.mem_cons.1 hs with rfl | hs
    · rw [hnull] at hsp; cases hsp
    · intro e; simp at e; rw [e] at hs; cases hs
  obtain ⟨ld, hld, g1, g2, g3⟩ := hl.inv.first hne
  cases hlo : st.loads with
  | nil => rw [hlo] at hld; cases hld
  | cons x lds =>
    rw [hlo] at hld
    cases hld
    refine ⟨ph, st.phs, ld, lds, hph, e1, e4, e7, e8, ?_, ?_, ?_, by rw [loadsOf_eq hl, hlo], g1, ?_, ?_, ?_⟩
    · rw [e5, ← hl.phnum, sizeofProgramHeader, Nat.mul_comm]
    · rw [e6, e5, ← hl.phnum, sizeofProgramHeader, Nat.mul_comm]
    · intro p hp
      by_cases hlp : isLoad p = true
      · unfold isLoad at hlp; rw [show p.p_type = PT_LOAD from by simpa using hlp]; decide
      · obtain ⟨_, _, _, _, _, hsrc, _⟩ := hl.sinv.src p hp (by simpa using hlp)
        rcases specialOf_not_load _ _ _ p hsrc with h | h <;> rw [h] <;> decide
    · rw [g2]; decide
    · rw [h4, sizeofHeader, sizeofProgramHeader] at g3; omega
    · exact (hl.inv.loadsOk ld (by rw [hlo]; simp)).2.2.2.2.2.2.2.2

/-- the demonstration link meets the hypotheses of `C45` -/
example : ∃ w w' f s, Run .default demoOps .id w w' f s ∧ FlagsOk demoOps ∧ NoDynamicPush demoOps ∧ NamesFit w := by
  obtain ⟨w, w', f, s, h, hp⟩ := Run.of_runs (opts := .default) (ops := demoOps) (sched := .id)
    (P := fun w _ _ _ => decide (w.shstr.totalLen < 2 ^ 32)) Sched.id_valid (by decide +kernel)
  exact ⟨w, w', f, s, h, .of_all (by decide +kernel), .of_all (by decide +kernel), of_decide_eq_true (p := w.shstr.totalLen < 2 ^ 32) hp⟩

end Dld
