import Verif.Lemmas.Cost
import Verif.Lemmas.PltFile
import Verif.Lemmas.Values
/-! # The middle stages of a link succeed -/
namespace Dld
open Writer Spec StringTable

variable {opts : Options} {ops : List Op} {sched : Sched} {w w' : Writer}

/-! ### Addresses -/

/-- no address of the output is beyond this one -/
def Writer.span (w : Writer) : Nat := 0x200000 + w.weight + 1024

theorem sec_of_mem {l : Section} (hn : (w.sections.map (·.ptr)).Nodup) (hs : l ∈ w.sections) : w.sec l.ptr = .ok l := by
  simp only [sec, unwrap_ok]
  cases hf : w.sections.find? (fun s => s.ptr == l.ptr) with
  | none =>
    rw [List.find?_eq_none] at hf
    exact absurd (beq_self_eq_true _) (hf l hs)
  | some t =>
    have h1 : t.ptr = l.ptr := by simpa using List.find?_some hf
    rw [eq_of_ptr hn (List.mem_of_find?_eq_some hf) hs h1]

theorem Hist.addr_zero (h : Hist opts ops w) {s : Section} (hs : s ∈ w.sections) : s.sh.sh_addr = 0 := by
  obtain ⟨w0, pn, h0, hI⟩ := h.winv
  obtain ⟨i, hi⟩ := List.getElem?_of_mem hs
  by_cases hlt : i < (tabNames opts.hashStyle).length
  · obtain ⟨b, n, hb, _, hm⟩ := hI.base i s hlt hi
    have := (new_idents opts w0 h0).2.1 b (List.mem_of_getElem? hb)
    rw [hm.sh]; exact this.2.1
  · obtain ⟨n, p, ps, _, _, hm⟩ := hI.pushed (i - (tabNames opts.hashStyle).length) s (by rw [Nat.add_sub_cancel' (by omega)]; exact hi)
    rw [hm.sh]; rfl

theorem placeSection_addr {v0 hdr : Nat} {st : LayoutState} {pl : List Section} {s : Section} (hI : LInv v0 hdr st pl)
    (ha : s.alloc = false) : (placeSection st s).2.sh.sh_addr = s.sh.sh_addr := by
  have hc := hI.cur
  unfold Section.alloc at ha
  unfold placeSection placeInFile
  simp only
  split
  · simp only [ha, Bool.false_eq_true, if_false]
  · next hf =>
    have hf : s.sh.sh_flags = st.flags := by simpa using hf
    rw [← hf, ha] at hc
    split
    · rfl
    · next h => rw [h] at hc; cases hc

theorem layoutLoop_addr {v0 hdr : Nat} {isInterp : SectionHeader → Bool} {l : List Section} :
    ∀ {st : LayoutState} {pl : List Section}, LInv v0 hdr st pl →
    (pl = [] → ∀ s ∈ l.head?, s.alloc = true) →
    ((pl ++ l).map (·.sh.sh_flags)).Pairwise flagsLe →
    ∀ t ∈ (layoutLoop isInterp st l).2, t.alloc = false → ∃ s ∈ l, t.sh.sh_addr = s.sh.sh_addr := by
  induction l with
  | nil => intro st pl _ _ _ t ht; cases ht
  | cons s l ih =>
    intro st pl hI hfirst hs t ht ha
    have hg := fun hne => FlagsSorted.group hs hI.flags hne
    have h1 := hI.step isInterp (s := s) (fun hp => hfirst hp s (by simp)) hg
    simp only [layoutLoop, List.mem_cons] at ht
    rcases ht with rfl | ht
    · refine ⟨s, by simp, ?_⟩
      have hal := (layoutStep_core isInterp st s).alloc
      rw [ha] at hal
      rw [layoutStep_eq]
      exact placeSection_addr hI hal.symm
    · obtain ⟨s', hs', e⟩ := ih h1 (fun h => by simp at h) (by
        simpa [(layoutStep_core isInterp st s).flags] using hs) t ht ha
      exact ⟨s', by simp [hs'], e⟩

theorem Writer.Early.sorted_addr (st : Early sched w) (hv : sched.Valid) (h : Hist opts ops w) {s : Section} (hs : s ∈ st.sorted.sections) :
    s.sh.sh_addr = 0 := by
  have hsf := h.secFacts
  obtain ⟨null, rest', e1', e2, e3⟩ := sortSecs_ok st.hsort
  have hd : ∃ b ∈ st.dynamic.sections, b.sh = s.sh := by
    rw [e3] at hs
    obtain ⟨i, hi⟩ := List.getElem?_of_mem hs
    rw [List.getElem?_mapIdx, Option.map_eq_some_iff] at hi
    obtain ⟨b, hb, rfl⟩ := hi
    refine ⟨b, ?_, rfl⟩
    have := List.mem_of_getElem? hb
    rw [e1']
    rcases List.mem_cons.1 this with h | h
    · simp [h]
    · rw [((stableSort_perm sectionLe (sched.secOrder rest')).trans (hv.secOrder rest')).mem_iff] at h
      simp [h]
  obtain ⟨b, hb, e⟩ := hd
  rw [st.presort hsf.known, List.mem_map] at hb
  obtain ⟨a, ha, rfl⟩ := hb
  rw [← e]
  obtain ⟨j, hj⟩ := List.getElem?_of_mem ha
  obtain ⟨s0, hs0, hba⟩ := getElem?_of_map (scan_sections st.hscan).1 hj
  have h2 : a.sh = s0.sh := congrArg (·.2.2.2.2.1) hba
  show a.sh.sh_addr = 0
  rw [h2]
  exact h.addr_zero (List.mem_of_getElem? hs0)

/-- the placed sections lie below the span; those not loaded have no address -/
theorem Writer.Early.addr (st : Early sched w) (hv : sched.Valid) (h : Hist opts ops w) (hf : FlagsOk ops) (hl : w.dynsym.symbols.length < 2 ^ 32)
    {i : Nat} {p : Section} (hp : st.placed.sections[i]? = some p) (hi : 0 < i) :
    (p.alloc = true → p.sh.sh_addr + p.sh.sh_size ≤ w.span) ∧ (p.alloc = false → p.sh.sh_addr = 0) := by
  have hr := st.ready hv h.secFacts hf
  obtain ⟨p1, _⟩ := st.placed_eq h.untouched
  have hb : st.placed.pVaddr = (finalState (fun sh => w.shstr.name sh.sh_name == some b!".interp") sizeofProgramHeader 0x200000 st.sorted.sections).1.pVaddr := by
    obtain ⟨s1, _, _, s2, s3, s4, _, s5, _⟩ := st.sorted_rest
    have hu := h.untouched
    unfold Early.placed genProgramHeaders
    rw [s1, s2, s3, s4, s5, hu.eh, hu.programHeaders, hu.pVaddr, hu.fileOffset]
    have : initHeader.e_phentsize = sizeofProgramHeader := rfl
    rw [this, generateProgramHeaders_eq]
  have hmem : p ∈ (finalState (fun sh => w.shstr.name sh.sh_name == some b!".interp") sizeofProgramHeader 0x200000 st.sorted.sections).2 := by
    rw [p1] at hp
    cases hl : st.sorted.sections with
    | nil => have := hr.nonempty; rw [hl] at this; simp at this
    | cons n l =>
      rw [hl] at hp
      cases i with
      | zero => omega
      | succ i =>
        simp only [List.take_succ_cons, List.take_zero, List.cons_append, List.nil_append, List.getElem?_cons_succ] at hp
        exact List.mem_of_getElem? hp
  refine ⟨fun ha => ?_, fun ha => ?_⟩
  · have h1 := ((hr.inv (isInterp := fun sh => w.shstr.name sh.sh_name == some b!".interp") (phentsize := sizeofProgramHeader) (v0 := 0x200000)).secs p hmem).2.2 ha
    have h2 := st.pVaddr_le hv h hl
    rw [hb] at h2
    unfold Writer.span
    omega
  · obtain ⟨s, hs, e⟩ := layoutLoop_addr (LInv.init 0x200000 (countProgramHeaders st.sorted.sections * sizeofProgramHeader + sizeofHeader)) (fun _ => hr.head)
      (by simpa using hr.sorted) p hmem ha
    rw [e]
    exact st.sorted_addr hv h (List.mem_of_mem_drop hs)

/-- the writer's own sections are among the placed ones -/
theorem Writer.Early.has (st : Early sched w) (hv : sched.Valid) (h : Hist opts ops w) {p : Nat} (hp : p ∈ (baseIdents opts.hashStyle).map (·.1)) :
    ∃ s ∈ st.placed.sections, s.ptr = p := by
  obtain ⟨s, hs, e⟩ := h.secFacts.has p hp
  obtain ⟨h1, h2⟩ := st.placed_frames hv h.secFacts h.untouched
  have h3 : (st.placed.sections.map frame).Perm (w.sections.map st.grown) := by
    rw [← List.take_append_drop 1 st.placed.sections, ← List.take_append_drop 1 w.sections, List.map_append, List.map_append, h1]
    exact h2.append_left _
  have h4 := h3.map (·.1)
  have : p ∈ (w.sections.map st.grown).map (·.1) := by
    rw [List.map_map]
    exact List.mem_map.2 ⟨s, hs, e⟩
  rw [← h4.mem_iff, List.map_map] at this
  exact List.mem_map.1 this

/-! ### `patch_plt_and_got_plt` -/

theorem writeAt_progress {d v : Bytes} {o : Nat} (h : o + v.length ≤ d.length) : ∃ d', writeAt d o v = .ok d' ∧ d'.length = d.length := by
  have : ∃ d', writeAt d o v = .ok d' := by
    unfold writeAt
    rw [if_pos h]
    exact ⟨_, rfl⟩
  obtain ⟨d', hd⟩ := this
  exact ⟨d', hd, length_writeAt hd⟩

theorem patchPltEntry_progress {t : SymbolTable} {pa ga : Nat} {pd gd : Bytes} {r : SymbolRef} {off i j : Nat} {s : Symbol}
    (hs : t.get r = some s) (hi : s.inPlt = some i) (hj : s.relocationOffset = some j) (h1 : pa + 16 * (i + 2) < 2 ^ 30) (h2 : ga + off < 2 ^ 30)
    (h3 : 16 * (i + 2) ≤ pd.length) (h4 : off + 8 ≤ gd.length) :
    ∃ pd' gd', patchPltEntry t pa ga (pd, gd) (r, off) = .ok (pd', gd') ∧ pd'.length = pd.length ∧ gd'.length = gd.length := by
  obtain ⟨ea, e1, hea⟩ : ∃ ea : Int, pltEntryAddr pa i = .ok ea ∧ ea = ((pa + 16 * (1 + i) : Nat) : Int) := by
    refine ⟨_, ?_, rfl⟩
    unfold pltEntryAddr PLT_ENTRY_SIZE
    exact i64_of ⟨by omega, by omega⟩
  obtain ⟨v1, e2⟩ : ∃ v, i32 (((off + ga : Nat) : Int) - ea - PLT_ENTRY_JMP_INSTR_SIZE) = .ok v :=
    ⟨_, i32_of (by unfold PLT_ENTRY_JMP_INSTR_SIZE; omega)⟩
  obtain ⟨v2, e3⟩ : ∃ v, i32 ((pa : Int) - (ea + PLT_ENTRY_SIZE)) = .ok v := ⟨_, i32_of (by unfold PLT_ENTRY_SIZE; omega)⟩
  obtain ⟨o, ho, hoe⟩ : ∃ o, (ea - pa).toNat = o ∧ o = 16 * (1 + i) := ⟨_, rfl, by omega⟩
  obtain ⟨g1, hg1, lg⟩ := writeAt_progress (d := gd) (o := off) (v := leInt 8 (ea + PLT_ENTRY_JMP_INSTR_SIZE)) (by simpa using h4)
  obtain ⟨p1, hp1, lp1⟩ := writeAt_progress (d := pd) (o := o + 2) (v := leInt 4 v1) (by simp; omega)
  obtain ⟨p2, hp2, lp2⟩ := writeAt_progress (d := p1) (o := o + PLT_ENTRY_JMP_INSTR_SIZE + 1) (v := le 4 (u32 j)) (by unfold PLT_ENTRY_JMP_INSTR_SIZE; simp; omega)
  obtain ⟨p3, hp3, lp3⟩ := writeAt_progress (d := p2) (o := o + PLT_ENTRY_JMP_INSTR_SIZE + PLT_ENTRY_PUSH_INSTR_SIZE + 1) (v := leInt 4 v2)
    (by unfold PLT_ENTRY_JMP_INSTR_SIZE PLT_ENTRY_PUSH_INSTR_SIZE; simp; omega)
  refine ⟨p3, g1, ?_, by omega, by omega⟩
  subst ho
  simp only [patchPltEntry, bind_ok, unwrap_ok]
  exact ⟨s, hs, i, hi, ea, e1, g1, hg1, v1, e2, p1, hp1, j, hj, p2, hp2, v2, e3, p3, hp3, rfl⟩

theorem patchPltHeader_progress {pa ga : Nat} {d : Bytes} (h1 : pa < 2 ^ 30) (h2 : ga < 2 ^ 30) (h3 : 16 ≤ d.length) :
    ∃ d', patchPltHeader pa ga d = .ok d' ∧ d'.length = d.length := by
  have e1 : i32 ((ga : Int) - pa + 8 - PLT_ENTRY_JMP_INSTR_SIZE) = .ok _ := i32_of (by unfold PLT_ENTRY_JMP_INSTR_SIZE; omega)
  have e2 : i32 ((ga : Int) - pa + 2 * 8 - 2 * PLT_ENTRY_JMP_INSTR_SIZE) = .ok _ := i32_of (by unfold PLT_ENTRY_JMP_INSTR_SIZE; omega)
  obtain ⟨p1, hp1, lp1⟩ := writeAt_progress (d := d) (o := 2) (v := leInt 4 ((ga : Int) - pa + 8 - PLT_ENTRY_JMP_INSTR_SIZE)) (by simp; omega)
  obtain ⟨p2, hp2, lp2⟩ := writeAt_progress (d := p1) (o := PLT_ENTRY_JMP_INSTR_SIZE + 2) (v := leInt 4 ((ga : Int) - pa + 2 * 8 - 2 * PLT_ENTRY_JMP_INSTR_SIZE))
    (by unfold PLT_ENTRY_JMP_INSTR_SIZE; simp; omega)
  refine ⟨p2, ?_, by omega⟩
  simp only [patchPltHeader, bind_ok]
  exact ⟨_, e1, p1, hp1, _, e2, hp2⟩

theorem Writer.Early.pos (st : Early sched w) (hv : sched.Valid) (h : Hist opts ops w) {i : Nat} {p : Section} (hp : st.placed.sections[i]? = some p)
    (hn : p.ptr ≠ P.null) : 0 < i := by
  obtain ⟨s0, a, htr⟩ := st.trip hv h.secFacts h.untouched hp
  obtain ⟨j, hj, _, hij⟩ := htr.src
  refine Nat.pos_of_ne_zero fun e => hn ?_
  have hj0 := hij.2 e
  subst hj0
  obtain ⟨null, rest, e1, e2⟩ := h.secFacts.head
  rw [e1] at hj
  simp only [List.getElem?_cons_zero, Option.some.injEq] at hj
  rw [htr.ptr_p, ← hj, e2]

theorem Writer.Early.addr_le (st : Early sched w) (hv : sched.Valid) (h : Hist opts ops w) (hf : FlagsOk ops) (hl : w.dynsym.symbols.length < 2 ^ 32)
    {i : Nat} {p : Section} (hp : st.placed.sections[i]? = some p) (hi : 0 < i) : p.sh.sh_addr ≤ w.span := by
  obtain ⟨h1, h2⟩ := st.addr hv h hf hl hp hi
  cases ha : p.alloc with
  | true => have := h1 ha; omega
  | false => rw [h2 ha]; omega

/-- one of the writer's own sections after placing -/
theorem Writer.Early.own (st : Early sched w) (hv : sched.Valid) (h : Hist opts ops w) {p : Nat} (hp : p ∈ (baseIdents opts.hashStyle).map (·.1)) :
    ∃ (i : Nat) (s s0 a : Section), st.placed.sec p = .ok s ∧ st.placed.sections[i]? = some s ∧ s.ptr = p ∧ ETrip st i s0 a s := by
  obtain ⟨s, hs, e⟩ := st.has hv h hp
  obtain ⟨i, hi⟩ := List.getElem?_of_mem hs
  obtain ⟨s0, a, htr⟩ := st.trip hv h.secFacts h.untouched hi
  exact ⟨i, s, s0, a, e ▸ sec_of_mem (st.placed_nodup hv h.secFacts h.untouched) hs, hi, e, htr⟩

theorem Writer.Early.own_chunk (st : Early sched w) (h : Hist opts ops w) (hc : CleanInputs ops) {i : Nat} {s s0 a : Section}
    (htr : ETrip st i s0 a s) (hp : s.ptr < P.first) (hi1 : s.ptr ≠ P.null) (hi2 : s.ptr ≠ P.interp) {d : Bytes} (hd : (st.growth s.ptr).add = [d]) :
    ∃ c, s.chunks = [c] ∧ c.data = d := by
  have hs0 := htr.ptr_p
  have hnc := hc.no_chunks h htr.mem0 (by rw [← hs0]; exact hp) (by rw [← hs0]; exact hi1) (by rw [← hs0]; exact hi2)
  have hcp := htr.chunks_p hnc
  rw [← hs0, hd] at hcp
  cases hcs : s.chunks with
  | nil => rw [hcs] at hcp; cases hcp
  | cons c cs =>
    rw [hcs] at hcp
    simp only [List.map_cons, List.map_nil, List.cons.injEq, List.map_eq_nil_iff, Prod.mk.injEq] at hcp
    exact ⟨c, by rw [hcp.2], hcp.1.1⟩

theorem Writer.Early.entries_rest (st : Early sched w) : st.entries = { st.dynrel with sections := st.entries.sections, programHeaders := st.entries.programHeaders, fileOffset := st.entries.fileOffset, pVaddr := st.entries.pVaddr, dynEntries := st.entries.dynEntries } := by
  have h1 := (sizeDynamic_sections st.hdynamic).2
  obtain ⟨_, _, _, h2, _⟩ := sortSecs_ok st.hsort
  have h3 : st.placed = { st.sorted with sections := st.placed.sections, programHeaders := st.placed.programHeaders, fileOffset := st.placed.fileOffset, pVaddr := st.placed.pVaddr } := by
    unfold Early.placed genProgramHeaders; rfl
  have h4 := addDynEntries_rest st.hentries
  have e : st.sorted.genProgramHeaders = st.placed := rfl
  rw [e, h3, h2, h1] at h4
  rw [h4]

/-- `patch_plt_and_got_plt` succeeds -/
theorem Writer.Early.patch (st : Early sched w) (hv : sched.Valid) (h : Hist opts ops w) (hf : FlagsOk ops) (hc : CleanInputs ops)
    (hl : w.dynsym.symbols.length < 2 ^ 32) (hsp : w.span < 2 ^ 29) : ∃ x, st.entries.patchPlt sched = .ok x := by
  obtain ⟨ks, gs, hI, _⟩ := st.scan h
  have L := st.linkRels hv h
  obtain ⟨i1, sp, sp0, ap, hsp1, hip, ptr1, tr1⟩ := st.own hv h (p := P.plt) (by cases opts.hashStyle <;> decide)
  obtain ⟨i2, sg, sg0, ag, hsg1, hig, ptr2, tr2⟩ := st.own hv h (p := P.gotPlt) (by cases opts.hashStyle <;> decide)
  have b1 := st.addr_le hv h hf hl hip (st.pos hv h hip (by rw [ptr1]; decide))
  have b2 := st.addr_le hv h hf hl hig (st.pos hv h hig (by rw [ptr2]; decide))
  obtain ⟨cp, hcp, dp⟩ := st.own_chunk h hc tr1 (by rw [ptr1]; decide) (by rw [ptr1]; decide) (by rw [ptr1]; decide) (d := st.scanned.plt.chunk) (by rw [ptr1]; rfl)
  obtain ⟨cg, hcg, dg⟩ := st.own_chunk h hc tr2 (by rw [ptr2]; decide) (by rw [ptr2]; decide) (by rw [ptr2]; decide)
    (d := List.replicate (8 * (st.scanned.gotPlt.length + 3)) 0) (by rw [ptr2]; rfl)
  have e1 : st.entries.sections = st.placed.sections := by rw [addDynEntries_rest st.hentries]; rfl
  have hsec : ∀ p, st.entries.sec p = st.placed.sec p := fun p => by unfold sec; rw [e1]
  have hpl : st.scanned.plt.length = ks.length := by have := hI.plt; simp only at this; rw [this]; simp
  have hgl : st.scanned.gotPlt.length = ks.length := by have := hI.gotPlt; simp only at this; rw [this]; simp
  have hkl := (st.got_le h).2.2
  rw [hpl] at hkl
  have hkw : 64 * ks.length + 0x200000 ≤ w.span := by unfold Writer.span Writer.weight; omega
  have lp : cp.data.length = 16 * (ks.length + 1) := by rw [dp, Plt.length_chunk, Plt.size, hpl]; simp [PLT_ENTRY_SIZE]; omega
  have lg : cg.data.length = 8 * (ks.length + 3) := by rw [dg, List.length_replicate, hgl]
  obtain ⟨d, hd, ld⟩ := patchPltHeader_progress (pa := sp.sh.sh_addr) (ga := sg.sh.sh_addr) (d := cp.data) (by omega) (by omega) (by omega)
  have t1 : st.entries.symtab = st.dynrel.symtab := by
    rw [st.entries_rest]
  have t2 : st.entries.gotPlt = st.scanned.gotPlt := by
    rw [st.entries_rest]; exact L.slots
  have hgot := hI.gotPlt
  simp only at hgot
  have hkeys : AMap.keys st.scanned.gotPlt = ks := by
    rw [hgot]; simp [AMap.keys, Function.comp_def]
  have hget : ∀ r, AMap.get? st.scanned.gotPlt r = if r ∈ ks then some ((ks.idxOf r + 3) * 8) else none := by
    intro r
    rw [hgot, AMap.get?_map_value (f := fun i => (i + 3) * 8), get?_zipIdx]
    split <;> simp
  have hloop : ∀ e ∈ (sched.gotPltIter (AMap.keys st.entries.gotPlt)).filterMap (fun r => (AMap.get? st.entries.gotPlt r).map fun o => (r, o)),
      ∀ b : Bytes × Bytes, b.1.length = 16 * (ks.length + 1) ∧ b.2.length = 8 * (ks.length + 3) →
      ∃ b', patchPltEntry st.entries.symtab sp.sh.sh_addr sg.sh.sh_addr b e = .ok b' ∧ (b'.1.length = 16 * (ks.length + 1) ∧ b'.2.length = 8 * (ks.length + 3)) := by
    intro e he b hb
    rw [t2, hkeys, List.mem_filterMap] at he
    obtain ⟨r, hr, he⟩ := he
    rw [(hv.gotPltIter ks).mem_iff] at hr
    rw [hget, if_pos hr] at he
    simp only [Option.map_some, Option.some.injEq] at he
    subst he
    have hlt := List.idxOf_lt_length_of_mem hr
    obtain ⟨rel, hmem, hup, s0, hs0, hd1⟩ := (hI.calls r).1 hr
    obtain ⟨d0, hd0⟩ := Option.isSome_iff_exists.1 hd1
    obtain ⟨ns, nd, hT⟩ := h.tableFacts
    obtain ⟨n, _, hrk, _⟩ := hT.inv.link r s0 d0 hs0 hd0
    generalize u32 (nameOff ns n) = k at hrk
    subst hrk
    obtain ⟨m, hm, hmk⟩ := L.all k s0 d0 hs0 hd0
    obtain ⟨s1, hs1, _⟩ := SymbolTable.view_get_some hI.tab.symm hs0
    obtain ⟨s2, hs2, hv2⟩ := SymbolTable.view_get_some L.tab.symm hs1
    have hpos : ∃ j, s2.relocationOffset = some j := by
      rcases L.pos k s2 hs2 with ⟨j, _, _, _, hj⟩ | ⟨hno, _⟩
      · exact ⟨j, hj⟩
      · have hm' := hm
        unfold Early.imports at hm'
        rw [List.mem_filterMap] at hm'
        obtain ⟨k', _, hm'⟩ := hm'
        unfold importOf at hm'
        simp only [Option.bind_eq_some_iff, Option.map_eq_some_iff] at hm'
        obtain ⟨s, hs, d, hsd, i, hi, ds, hds, he⟩ := hm'
        have hk' : k' = k := by rw [← hmk, ← he]
        subst hk'
        have hg : m.gotPlt = some ((ks.idxOf (SymbolRef.named k') + 3) * 8) := by
          rw [← he]
          have := (hI.inPlt (.named k') s hs).2
          simp only at this
          rw [hget, if_pos hr] at this
          exact this
        exact absurd hmk (hno (m, _) (List.mem_filterMap.2 ⟨m, hm, by rw [hg]; rfl⟩))
    obtain ⟨j, hj⟩ := hpos
    have hin : s2.inPlt = some (ks.idxOf (SymbolRef.named k)) := by
      have e : s1.inPlt = s2.inPlt := congrArg (·.inPlt) hv2
      have := (hI.inPlt _ s1 hs1).1
      rw [hI.plt, get?_zipIdx, if_pos hr] at this
      rw [← e]; exact this
    obtain ⟨pd', gd', q1, q2, q3⟩ := patchPltEntry_progress (pa := sp.sh.sh_addr) (ga := sg.sh.sh_addr) (pd := b.1) (gd := b.2) (off := (ks.idxOf (SymbolRef.named k) + 3) * 8)
      (t1 ▸ hs2) hin hj (by omega) (by omega) (by omega) (by omega)
    exact ⟨(pd', gd'), q1, q2.trans hb.1, q3.trans hb.2⟩
  obtain ⟨b, hb, _⟩ := foldM'_progress _ (s := (d, cg.data)) ⟨by simp only; omega, by simp only; omega⟩ fun s a ha hs => hloop a ha s hs
  have : ∃ x, st.entries.patchPlt sched = .ok x := by
    simp only [patchPlt, bind_ok, unwrap_ok, hsec]
    exact ⟨_, sp, hsp1, sg, hsg1, cp, by rw [hcp]; rfl, cg, by rw [hcg]; rfl, d, hd, b, hb, rfl⟩
  exact this

end Dld
