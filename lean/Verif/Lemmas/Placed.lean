import Verif.Props.Got
/-! # The chunks of pushed sections in the output -/
namespace Dld
open Writer

/-! ### Sections that are not loaded get no address -/

theorem placeSection_unplaced {v0 hdr : Nat} {st : LayoutState} {pl : List Section} {s : Section} (hI : LInv v0 hdr st pl)
    (ha : s.alloc = false) : (placeSection st s).2.chunks = s.chunks := by
  have hc := hI.cur
  unfold Section.alloc at ha
  unfold placeSection placeInFile
  simp only
  split
  · simp only [ha, Bool.false_eq_true, if_false]
  · next hf =>
    have hf : s.sh.sh_flags = st.flags := by simpa using hf
    rw [← hf, ha] at hc
    split
    · rfl
    · next h => rw [h] at hc; cases hc

theorem layoutLoop_unplaced {v0 hdr : Nat} {isInterp : SectionHeader → Bool} {l : List Section} :
    ∀ {st : LayoutState} {pl : List Section}, LInv v0 hdr st pl →
    (pl = [] → ∀ s ∈ l.head?, s.alloc = true) →
    ((pl ++ l).map (·.sh.sh_flags)).Pairwise flagsLe →
    ∀ t ∈ (layoutLoop isInterp st l).2, t.alloc = false → ∃ s ∈ l, t.chunks = s.chunks := by
  induction l with
  | nil => intro st pl _ _ _ t ht; cases ht
  | cons s l ih =>
    intro st pl hI hfirst hs t ht ha
    have hg := fun hne => FlagsSorted.group hs hI.flags hne
    have h1 := hI.step isInterp (s := s) (fun hp => hfirst hp s (by simp)) hg
    simp only [layoutLoop, List.mem_cons] at ht
    rcases ht with rfl | ht
    · refine ⟨s, by simp, ?_⟩
      have hal := (layoutStep_core isInterp st s).alloc
      rw [ha] at hal
      rw [layoutStep_eq]
      exact placeSection_unplaced hI hal.symm
    · obtain ⟨s', hs', e⟩ := ih h1 (fun h => by simp at h) (by
        simpa [(layoutStep_core isInterp st s).flags] using hs) t ht ha
      exact ⟨s', by simp [hs'], e⟩

theorem Ready.unplaced {isInterp : SectionHeader → Bool} {phentsize v0 : Nat} {secs : List Section}
    (h : Ready secs) {t : Section} (ht : t ∈ (finalState isInterp phentsize v0 secs).2) (ha : t.alloc = false) :
    ∃ s ∈ secs.drop 1, t.chunks = s.chunks :=
  layoutLoop_unplaced (LInv.init v0 (countProgramHeaders secs * phentsize + sizeofHeader)) (fun _ => h.head) (by simpa using h.sorted) t ht ha

namespace Writer
variable {sched : Sched} {w : Writer} {opts : Options} {ops : List Op}

theorem chunkAt_of_mem (hn : (w.sections.map (·.ptr)).Nodup) {s : Section} (hs : s ∈ w.sections) (k : Nat) :
    w.chunkAt ⟨s.ptr, k⟩ = s.chunks[k]? := by
  unfold chunkAt
  cases hf : w.sections.find? (fun t => t.ptr == s.ptr) with
  | none =>
    rw [List.find?_eq_none] at hf
    exact absurd (beq_self_eq_true _) (hf s hs)
  | some t =>
    have h1 : t.ptr = s.ptr := by simpa using List.find?_some hf
    rw [eq_of_ptr hn (List.mem_of_find?_eq_some hf) hs h1]
    rfl

/-- chunks have no address before the layout -/
theorem Early.sorted_unplaced (hv : sched.Valid) (st : Early sched w) (hh : Hist opts ops w) {s : Section} (hs : s ∈ st.sorted.sections)
    {c : Chunk} (hc : c ∈ s.chunks) : c.address = none := by
  have hsf := hh.secFacts
  obtain ⟨null, rest', e1', e2, e3⟩ := sortSecs_ok st.hsort
  obtain ⟨w0, pn, h0, hI⟩ := hh.winv
  have hd : ∃ b ∈ st.dynamic.sections, b.chunks = s.chunks := by
    rw [e3] at hs
    obtain ⟨i, hi⟩ := List.getElem?_of_mem hs
    rw [List.getElem?_mapIdx, Option.map_eq_some_iff] at hi
    obtain ⟨b, hb, rfl⟩ := hi
    refine ⟨b, ?_, rfl⟩
    have := List.mem_of_getElem? hb
    rw [e1']
    rcases List.mem_cons.1 this with h | h
    · simp [h]
    · rw [((stableSort_perm sectionLe (sched.secOrder rest')).trans (hv.secOrder rest')).mem_iff] at h
      simp [h]
  obtain ⟨b, hb, e⟩ := hd
  rw [st.presort hsf.known, List.mem_map] at hb
  obtain ⟨a, ha, rfl⟩ := hb
  rw [← e] at hc
  rcases List.mem_append.1 hc with h | h
  · obtain ⟨j, hj⟩ := List.getElem?_of_mem ha
    obtain ⟨s0, hs0, hba⟩ := getElem?_of_map (scan_sections st.hscan).1 hj
    have hcs : a.chunks.map chunkCore = s0.chunks.map chunkCore := congrArg (·.2.2.2.2.2) hba
    obtain ⟨k, hk⟩ := List.getElem?_of_mem h
    obtain ⟨c0, hc0, hcc⟩ := getElem?_of_map hcs hk
    have h1 := hh.cinv.chunk ⟨s0.ptr, k⟩ c0 (by rw [chunkAt_of_mem (hI.ptrs_nodup h0) (List.mem_of_getElem? hs0)]; exact hc0)
    exact (congrArg (·.1) hcc).trans h1.1
  · obtain ⟨d, _, rfl⟩ := List.mem_map.1 h
    rfl

/-- the addresses of the chunks of a placed section -/
theorem ETrip.addrs {st : Early sched w} {i : Nat} {s0 a p : Section} (h : ETrip st i s0 a p) (hv : sched.Valid)
    (hh : Hist opts ops w) (hf : FlagsOk ops) (hi : 0 < i) :
    (p.alloc = true → ChunksPlaced p) ∧ (p.alloc = false → ∀ c ∈ p.chunks, c.address = none) := by
  have hr := st.ready hv hh.secFacts hf
  obtain ⟨p1, _⟩ := st.placed_eq hh.untouched
  have hp := h.placed
  rw [p1] at hp
  have hmem : p ∈ (finalState (fun sh => w.shstr.name sh.sh_name == some b!".interp") sizeofProgramHeader 0x200000 st.sorted.sections).2 := by
    cases hl : st.sorted.sections with
    | nil => have := hr.nonempty; rw [hl] at this; simp at this
    | cons n l =>
      rw [hl] at hp
      cases i with
      | zero => omega
      | succ i =>
        simp only [List.take_succ_cons, List.take_zero, List.cons_append, List.nil_append, List.getElem?_cons_succ] at hp
        exact List.mem_of_getElem? hp
  refine ⟨hr.minv.chunks p hmem, fun ha c hc => ?_⟩
  obtain ⟨b, hb, e⟩ := hr.unplaced hmem ha
  rw [e] at hc
  exact st.sorted_unplaced hv hh (List.mem_of_mem_drop hb) hc

theorem setChunkAddrs_getElem {cs : List Chunk} : ∀ {base k : Nat} {c : Chunk}, (Section.setChunkAddrs base cs)[k]? = some c →
    c.address = some (base + ((cs.take k).map (·.data.length)).sum) := by
  induction cs with
  | nil => intro base k c h; simp [Section.setChunkAddrs] at h
  | cons d cs ih =>
    intro base k c h
    cases k with
    | zero =>
      simp only [Section.setChunkAddrs, List.getElem?_cons_zero, Option.some.injEq] at h
      subst h; simp
    | succ k =>
      simp only [Section.setChunkAddrs, List.getElem?_cons_succ] at h
      rw [ih h]
      simp only [List.take_succ_cons, List.map_cons, List.sum_cons]
      congr 1; omega

/-- the name offset of a placed section -/
theorem MTrip.sh_name {st : Mid sched w} {i : Nat} {s0 a p q u : Section} (h : MTrip st i s0 a p q u) :
    u.sh.sh_name = s0.sh.sh_name := by
  have h1 : u.sh = p.sh := (congrArg (·.2.2.2.2) h.named.1).trans (congrArg (·.2.2.2.2) h.patch.1)
  have h2 : a.sh = s0.sh := congrArg (·.2.2.2.2.1) h.bare
  have h3 := congrArg (·.sh_name) h.core.2.2.2.2.1
  rw [h1, ← h2]
  exact h3.trans rfl

end Writer

variable {opts : Options} {ops : List Op} {sched : Sched} {w w' : Writer} {file : Bytes} {secs : List Section}

/-- the sections to be relocated are the ones the writer does not keep its symbol tables in -/
theorem Writer.MTrip.relocatable {st : Mid sched w} {i : Nat} {s0 a p q u : Section} (h : MTrip st i s0 a p q u) (hv : sched.Valid)
    (hh : Hist opts ops w) (hn : NamesFit w) {y d : Section} (hy : st.special.sec P.sym = .ok y) (hd : st.special.sec P.dynsym = .ok d) :
    relocatable [y.sh.sh_name, d.sh.sh_name] u = (s0.ptr != P.sym && s0.ptr != P.dynsym) := by
  have key : ∀ {p : Nat} {y : Section}, p ∈ (baseIdents opts.hashStyle).map (·.1) → st.special.sec p = .ok y →
      (y.sh.sh_name = u.sh.sh_name ↔ s0.ptr = p) := by
    intro p y hp hy
    obtain ⟨my, py⟩ := sec_ok hy
    obtain ⟨j, hj⟩ := List.getElem?_of_mem my
    obtain ⟨_, _, _, _, T⟩ := st.trip hv hh.secFacts hh.untouched hj
    obtain ⟨w0, pn, h0, hI⟩ := hh.winv
    rw [T.sh_name, h.sh_name]
    have e1 := (hI.name_iff h0 hn T.mem0 hp).2 (T.ptr_u.symm.trans py)
    have e2 := hI.name_iff h0 hn h.mem0 hp
    constructor
    · intro e
      rw [← e2]
      unfold Dld.nameOf at e1 ⊢
      rw [← e]; exact e1
    · intro e
      have := eq_of_ptr (hI.ptrs_nodup h0) T.mem0 h.mem0 ((T.ptr_u.symm.trans py).trans e.symm)
      rw [this]
  have h1 := key (p := P.sym) (by cases opts.hashStyle <;> decide) hy
  have h2 := key (p := P.dynsym) (by cases opts.hashStyle <;> decide) hd
  unfold Writer.relocatable
  rw [Bool.eq_iff_iff]
  simp only [List.contains_cons, List.contains_nil, Bool.or_false, Bool.not_eq_true', Bool.or_eq_false_iff, beq_eq_false_iff_ne, ne_eq,
    Bool.and_eq_true, bne_iff_ne]
  rw [← h1, ← h2, eq_comm (a := u.sh.sh_name), eq_comm (a := u.sh.sh_name)]

/-- what became of the chunk `c0` of an input section: scanned, placed at `addr` if the section is
loaded, and relocated -/
def ChunkFate (w w' : Writer) (g pl : Nat) (addr : Option Nat) (c0 c' : Chunk) : Prop :=
  ∃ c : Chunk, c.data = c0.data ∧ c.relocations = c0.relocations.map (Spec.scannedReloc w.symtab) ∧ c.address = addr ∧
    c.applyRelocations g pl w'.symtab w'.dynsym = .ok c'

/-- **The chunks of a pushed section.** -/
theorem Run.pushed (h : Run opts ops sched w w' file secs) (hf : FlagsOk ops) (hn : NamesFit w) {t g pl : Section} (ht : t ∈ secs)
    (hp : P.first ≤ t.ptr) (hg : g ∈ secs) (pg : g.ptr = P.got) (hpl : pl ∈ secs) (ppl : pl.ptr = P.plt) :
    ∃ s0 ∈ w.sections, s0.ptr = t.ptr ∧ t.chunks.length = s0.chunks.length ∧
      (s0.sh.sh_flags = t.sh.sh_flags ∧ s0.sh.sh_type = t.sh.sh_type ∧ s0.sh.sh_size = t.sh.sh_size ∧ s0.sh.sh_addralign = t.sh.sh_addralign) ∧
      ∀ k c0, s0.chunks[k]? = some c0 → ∃ c', t.chunks[k]? = some c' ∧
        ChunkFate w w' g.sh.sh_addr pl.sh.sh_addr
          (if t.alloc then some (t.sh.sh_addr + ((s0.chunks.take k).map (·.data.length)).sum) else none) c0 c' := by
  obtain ⟨i, hi⟩ := List.getElem?_of_mem ht
  obtain ⟨s, hs, hfin, hfz⟩ := h.finalized hi
  obtain ⟨st, hst⟩ := h.stages
  have hsf := h.hist.secFacts
  have hu := h.hist.untouched
  subst hst
  obtain ⟨s0, a, p, q, u, r, T⟩ := st.trip h.valid hsf hu hs
  have hp0 : P.first ≤ s0.ptr := by rw [← T.ptr, ← hfin.ptr]; exact hp
  have hne : ∀ k, k < 16 → s0.ptr ≠ k := fun k hk => by simp only [P.first] at hp0; omega
  have hkind : s.kind = .plain := by
    rcases hsf.known s0 T.mem0 with hk | hk
    · have hlt : ∀ o ∈ origins opts.hashStyle, o.1 < P.first := by cases opts.hashStyle <;> decide
      exact absurd (hlt _ hk) (Nat.not_lt.2 hp0)
    · have := congrArg (·.2.2.2.1) T.bare
      have h2 := congrArg (·.2.2.2.1) T.post_s
      have h3 := T.core.2.2.2.1
      have h4 : (Growth.apply (st.growth a.ptr) a).kind = a.kind := rfl
      exact (h2.trans h3).trans (this.trans hk.2.1)
  have hch : t.chunks = s.chunks := by
    have := finalizeSec_chunks hfz
    rw [hkind] at this
    exact this
  have hi0 : 0 < i := by
    rcases Nat.eq_zero_or_pos i with h0 | h0
    · obtain ⟨j, hj, _, hji⟩ := T.src
      rw [hji.2 h0] at hj
      obtain ⟨null, rest, e, en⟩ := hsf.head
      rw [e] at hj
      cases hj
      exact absurd en (hne 0 (by decide))
    · exact h0
  have hgr := st.growth_pushed (p := a.ptr) (by rw [T.ptr_a]; exact hp0)
  have hcore := T.core
  rw [hgr] at hcore
  have hqp : q = p := T.patch.2 (by rw [T.ptr_p]; exact hne _ (by decide)) (by rw [T.ptr_p]; exact hne _ (by decide))
  obtain ⟨g1, pl1, y, d, hg1, hpl1, hy, hd, hr⟩ := T.rel hi0
  have eg := h.same_addr hf st.posts.2.2.2.1 (sec_ok hg1).1 hg (by rw [pg, (sec_ok hg1).2])
  have epl := h.same_addr hf st.posts.2.2.2.1 (sec_ok hpl1).1 hpl (by rw [ppl, (sec_ok hpl1).2])
  have hrel := T.relocatable h.valid h.hist hn hy hd
  rw [show (s0.ptr != P.sym && s0.ptr != P.dynsym) = true by
    simp only [Bool.and_eq_true, bne_iff_ne]; exact ⟨hne _ (by decide), hne _ (by decide)⟩] at hrel
  unfold relocSection at hr
  rw [hrel] at hr
  simp only [if_true, bind_ok, Prod.exists] at hr
  obtain ⟨_, cs, h1, h2⟩ := hr
  cases h2
  have hsc : s.chunks = cs := by
    rw [T.fin, tableData_pushed (by show P.first ≤ u.ptr; rw [T.ptr_u]; exact hp0)]
    simp [addChunks]
  have hlen : cs.length = u.chunks.length := (mapAccumM_getElem h1).1
  have ea : a.chunks = s0.chunks.map fun c => { c with relocations := c.relocations.map (Spec.scannedReloc w.symtab) } := by
    obtain ⟨j, hj, hja, _⟩ := T.src
    rw [scan_only_redirects_calls h.hist st.hscan, List.getElem?_map, hj] at hja
    cases hja; rfl
  have hu1 : u.chunks.map chunkBody = p.chunks.map chunkBody := by rw [T.named.2, hqp]
  have hsp : p.chunks.map (fun c => (c.data, c.symbols, c.relocations)) = a.chunks.map (fun c => (c.data, c.symbols, c.relocations)) := by
    rw [hcore.2.2.2.2.2]
    simp [Growth.apply]
  have hpl0 : p.chunks.length = s0.chunks.length := by
    have := congrArg List.length hsp
    simpa [ea] using this
  have hul : u.chunks.length = p.chunks.length := by simpa using congrArg List.length hu1
  have hsh : p.sh = { s0.sh with sh_addr := p.sh.sh_addr, sh_offset := p.sh.sh_offset } := by
    have h3 := hcore.2.2.2.2.1
    have h2 : a.sh = s0.sh := congrArg (·.2.2.2.2.1) T.bare
    rw [← h2]
    exact h3.trans rfl
  have htsh : t.sh = { p.sh with sh_link := t.sh.sh_link } := by
    rw [hfin.sh, T.sh_p, hkind]
    rfl
  refine ⟨s0, T.mem0, ?_, ?_, ?_, ?_⟩
  · rw [hfin.ptr, T.ptr]
  · rw [hch, hsc, hlen, hul, hpl0]
  · rw [htsh, hsh]; exact ⟨rfl, rfl, rfl, rfl⟩
  · intro k c0 hk
    have hk' : k < s0.chunks.length := (List.getElem?_eq_some_iff.1 hk).1
    obtain ⟨cu, hcu⟩ : ∃ cu, u.chunks[k]? = some cu := ⟨u.chunks[k]'(by omega), List.getElem?_eq_getElem _⟩
    obtain ⟨cp, hcp, ecp⟩ := getElem?_of_map hu1 hcu
    obtain ⟨ca, hca, eca⟩ := getElem?_of_map hsp hcp
    rw [ea, List.getElem?_map, hk] at hca
    cases hca
    obtain ⟨_, _, c', hf', hc'⟩ := (mapAccumM_getElem h1).2 k cu hcu
    rw [bind_ok] at hf'
    obtain ⟨c2, happ, hf'⟩ := hf'
    cases hf'
    simp only [chunkBody, Prod.mk.injEq] at ecp eca
    rw [eg, epl, ← st.final_tables.1, ← st.final_tables.2.1] at happ
    refine ⟨c', by rw [hch, hsc]; exact hc', cu, ecp.2.1.trans eca.1, ecp.2.2.trans eca.2.2, ?_, happ⟩
    rw [ecp.1]
    obtain ⟨k1, k2⟩ := T.addrs h.valid h.hist hf hi0
    have hal : t.alloc = p.alloc := by unfold Section.alloc; rw [htsh]
    rw [hal]
    cases hpa : p.alloc with
    | false => exact k2 hpa cp (List.mem_of_getElem? hcp)
    | true =>
      have k3 := k1 hpa
      unfold ChunksPlaced at k3
      rw [k3] at hcp
      rw [setChunkAddrs_getElem hcp]
      have hl : p.chunks.map (·.data.length) = s0.chunks.map (·.data.length) := by
        have := congrArg (List.map fun x : Bytes × List SymbolRef × List (Rela × SymbolRef) => x.1.length) hsp
        simpa [Function.comp_def, ea] using this
      rw [List.map_take, hl, ← List.map_take, htsh]
      rfl

end Dld
