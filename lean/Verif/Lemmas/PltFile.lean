import Verif.Lemmas.PltBytes
import Verif.Lemmas.Imports
import Verif.Lemmas.Check
/-! # `.plt` and `.got.plt` in the file -/
namespace Dld
open Writer Spec

variable {opts : Options} {ops : List Op} {sched : Sched} {w w' : Writer} {file : Bytes} {secs : List Section}

/-- a section of a stage after placing and the section of the file with the same identity -/
theorem Run.same_section (h : Run opts ops sched w w' file secs) (hf : FlagsOk ops) {l : List Section} (hl : l.map post = w'.sections.map post)
    {s t : Section} (hs : s ∈ l) (ht : t ∈ secs) (he : t.ptr = s.ptr) :
    ∃ i : Nat, l[i]? = some s ∧ secs[i]? = some t ∧ ∃ s', w'.sections[i]? = some s' ∧ post s = post s' ∧ Finalized w' s' t := by
  obtain ⟨i, hi, rfl⟩ := List.getElem_of_mem hs
  have hi' : l[i]? = some l[i] := List.getElem?_eq_getElem hi
  obtain ⟨s', hs', e⟩ := getElem?_of_map hl hi'
  have hlen := h.secs_length
  have hlt : i < secs.length := by
    obtain ⟨h1, _⟩ := List.getElem?_eq_some_iff.1 hs'; omega
  have hu : secs[i]? = some secs[i] := List.getElem?_eq_getElem hlt
  obtain ⟨s'', hs'', hfin, _⟩ := h.finalized hu
  rw [hs'] at hs''; cases hs''
  have : secs[i].ptr = t.ptr := by rw [hfin.ptr, he]; exact (congrArg (·.1) e).symm
  have := eq_of_ptr (h.ptrs_nodup hf) (List.getElem_mem hlt) ht this
  exact ⟨i, hi', this ▸ hu, s', hs', e, this ▸ hfin⟩

theorem Run.same_addr (h : Run opts ops sched w w' file secs) (hf : FlagsOk ops) {l : List Section} (hl : l.map post = w'.sections.map post)
    {s t : Section} (hs : s ∈ l) (ht : t ∈ secs) (he : t.ptr = s.ptr) : s.sh.sh_addr = t.sh.sh_addr := by
  obtain ⟨_, _, _, s', _, e, hfin⟩ := h.same_section hf hl hs ht he
  rw [hfin.addr]
  have : s.sh = s'.sh := congrArg (·.2.2.2.2) e
  rw [this]

/-- the sections after placing correspond to those at the end -/
theorem Writer.Stages.posts (st : Stages sched w) : st.placed.sections.map post = st.final.sections.map post ∧
    st.entries.sections.map post = st.final.sections.map post ∧ st.patched.sections.map post = st.final.sections.map post ∧
    st.special.sections.map post = st.final.sections.map post ∧ st.relocated.sections.map post = st.final.sections.map post := by
  have h0 := st.final_post.1
  have e1 : st.entries.sections = st.placed.sections := by rw [addDynEntries_rest st.hentries]; rfl
  have h2 := (patchPlt_post st.hpatch).1
  have h3 := (special_post st.hspecial).1
  have h4 := (handleRelocations_post st.hreloc).1
  refine ⟨h0.symm, by rw [e1, h0], by rw [h2, e1, h0], by rw [h3, h2, e1, h0], by rw [h4, h3, h2, e1, h0]⟩

/-- the code and the words of the procedure linkage table -/
structure PltFile (st : Stages sched w) (ks : List SymbolRef) (t g : Section) : Prop where
  headFits : InI32 ((g.sh.sh_addr : Int) - t.sh.sh_addr + 2) ∧ InI32 ((g.sh.sh_addr : Int) - t.sh.sh_addr + 4)
  head : slice (contents t) 0 16 = pltHead ((g.sh.sh_addr : Int) - t.sh.sh_addr + 2) ((g.sh.sh_addr : Int) - t.sh.sh_addr + 4)
  lenP : (contents t).length = 16 * (ks.length + 1)
  lenG : (contents g).length = 8 * (ks.length + 3)
  reserved : slice (contents g) 0 24 = List.replicate 24 0
  entry : ∀ i r, ks[i]? = some r → ∃ s j, st.dynrel.symtab.get r = some s ∧ s.relocationOffset = some j ∧
    InI32 (((i + 3) * 8 + g.sh.sh_addr : Nat) - (t.sh.sh_addr + 16 * (i + 1) : Nat) - 6 : Int) ∧ InI32 (-(16 * (i + 2) : Nat) : Int) ∧
    t.sh.sh_addr + 16 * (i + 1) < 2 ^ 63 ∧
    slice (contents t) (16 * (i + 1)) 16 =
      pltCode (((i + 3) * 8 + g.sh.sh_addr : Nat) - (t.sh.sh_addr + 16 * (i + 1) : Nat) - 6) j (-(16 * (i + 2) : Nat)) ∧
    slice (contents g) ((i + 3) * 8) 8 = leInt 8 ((t.sh.sh_addr + 16 * (i + 1) : Nat) + 6)

theorem Plt.slice_chunk (p : Plt) {i : Nat} (h : i < p.length) : slice p.chunk (16 * (i + 1)) 16 = pltEntry := by
  unfold Plt.chunk
  have hh : pltHeader.length = 16 := rfl
  rw [slice_append_right (by rw [hh]; omega), hh]
  generalize p.length = n at h
  have : ∀ n i, i < n → slice (List.replicate n pltEntry).flatten (16 * i) 16 = pltEntry := by
    intro n
    induction n with
    | zero => intro i h; omega
    | succ n ih =>
      intro i h
      rw [List.replicate_succ, List.flatten_cons]
      have hl : pltEntry.length = 16 := rfl
      cases i with
      | zero => rw [slice_append_left (by rw [hl]; omega)]; rfl
      | succ i =>
        rw [slice_append_right (by rw [hl]; omega), hl, show 16 * (i + 1) - 16 = 16 * i by omega]
        exact ih i (by omega)
  rw [show 16 * (i + 1) - 16 = 16 * i by omega]
  exact this n i h

theorem Run.pltFile (h : Run opts ops sched w w' file secs) (hf : FlagsOk ops) (hc : CleanInputs ops) (st : Stages sched w) (hst : st.final = w')
    {ks : List SymbolRef} {gs : List (SymbolRef × Nat × Nat)}
    (hI : ScanInv w.symtab (relocsOf w) ks gs { symtab := st.scanned.symtab, plt := st.scanned.plt, gotPlt := st.scanned.gotPlt, gotLen := st.scanned.gotLen })
    {t g : Section} (ht : t ∈ secs) (htp : t.ptr = P.plt) (hg : g ∈ secs) (hgp : g.ptr = P.gotPlt) : PltFile st ks t g := by
  subst hst
  obtain ⟨ns, nd, hT⟩ := h.hist.tableFacts
  have L := st.linkRels h.valid h.hist
  obtain ⟨_, post1, _⟩ := st.posts
  obtain ⟨sp, sg, pc, gc, d, pd, gd, hp1, hg1, hpc, hgc, hhead, hloop, hpat⟩ := patchPlt_data st.hpatch
  obtain ⟨mp, pp⟩ := sec_ok hp1
  obtain ⟨mg, pg⟩ := sec_ok hg1
  have e1 : st.entries.sections = st.placed.sections := by rw [addDynEntries_rest st.hentries]; rfl
  have hsf := h.hist.secFacts
  -- one of the two sections
  have one : ∀ {x : Section} {c : Chunk} {y : Section} {p : Nat}, x ∈ st.entries.sections → x.ptr = p → x.chunks[0]? = some c → y ∈ secs → y.ptr = p →
      p = P.plt ∨ p = P.gotPlt → ∀ data, (∀ z, z.ptr = p → (if z.ptr = P.plt then setChunk0 pd z else z).ptr = p) →
      (∀ z : Section, z.ptr = p → (if (if z.ptr = P.plt then setChunk0 pd z else z).ptr = P.gotPlt then setChunk0 gd (if z.ptr = P.plt then setChunk0 pd z else z) else (if z.ptr = P.plt then setChunk0 pd z else z)) = setChunk0 data z) →
      (st.growth p).add = [c.data] ∧ contents y = data := by
    intro x c y p hx hxp hxc hy hyp hor data _ hmod
    obtain ⟨i, hi, hyi, s', hs', epost, hfin⟩ := h.same_section hf post1 hx hy (by rw [hyp, hxp])
    obtain ⟨s0, a, pl, q, u, r, htr⟩ := st.trip h.valid hsf h.hist.untouched hs'
    have hpl : pl = x := by
      have := htr.placed
      rw [← e1, hi] at this; cases this; rfl
    subst hpl
    have hs0 : s0.ptr = p := by rw [← htr.ptr_p, hxp]
    have hnc := hc.no_chunks h.hist htr.mem0 (by rw [hs0]; rcases hor with rfl | rfl <;> decide) (by rw [hs0]; rcases hor with rfl | rfl <;> decide)
      (by rw [hs0]; rcases hor with rfl | rfl <;> decide)
    have hcp := htr.chunks_p hnc
    rw [hs0] at hcp
    have hadd : ∃ b, (st.growth p).add = [b] := by rcases hor with rfl | rfl <;> exact ⟨_, rfl⟩
    obtain ⟨b, hb⟩ := hadd
    rw [hb] at hcp
    cases hcs : pl.chunks with
    | nil => rw [hcs] at hxc; cases hxc
    | cons c0 cs =>
      rw [hcs] at hcp hxc
      simp only [List.map_cons, List.map_nil, List.cons.injEq, List.map_eq_nil_iff, Prod.mk.injEq] at hcp
      simp only [List.getElem?_cons_zero, Option.some.injEq] at hxc
      subst hxc
      refine ⟨by rw [hb, hcp.1.1], ?_⟩
      have hq : q = setChunk0 data pl := by
        have := htr.patched
        rw [hpat] at this
        simp only [modSec, List.getElem?_map, hi, Option.map_some, Option.some.injEq] at this
        rw [← this]
        exact hmod pl hxp
      have hqc : q.chunks = [{ c0 with data := data }] := by
        rw [hq]; simp only [setChunk0, hcs, hcp.2]; rfl
      have hd := htr.datas_patched (by rw [hqc]; intro c' hc'; simp only [List.mem_singleton] at hc'; rw [hc']; exact hcp.1.2)
      rw [hqc, hs0] at hd
      have htab : tableData st.relocated st.tables p = [] := by rcases hor with rfl | rfl <;> rfl
      rw [htab] at hd
      obtain ⟨s'', hs'', _, hfz⟩ := h.finalized hyi
      rw [hs'] at hs''; cases hs''
      have hch := finalizeSec_chunks hfz
      have hk0 := hsf.known s0 htr.mem0
      have hkind : s'.kind = s0.kind := by
        have : s'.kind = pl.kind := congrArg (·.2.2.2.1) htr.post_s
        rw [this, htr.core.2.2.2.1]; exact congrArg (·.2.2.2.1) htr.bare
      have hyc : y.chunks = s'.chunks := by
        rw [hch]
        cases hk : s'.kind with
        | symtab =>
          have := hk0.symtab_ptr (by rw [← hkind]; exact hk)
          rw [hs0] at this; rcases hor with rfl | rfl <;> cases this
        | dynsym =>
          have := hk0.dynsym_ptr (by rw [← hkind]; exact hk)
          rw [hs0] at this; rcases hor with rfl | rfl <;> cases this
        | _ => rfl
      rw [contents_of_datas (l := [data]) (by rw [hyc, hd]; rfl)]
      simp
  obtain ⟨gp, cp⟩ := one mp pp hpc ht htp (.inl rfl) pd (fun z hz => by rw [if_pos hz]; exact hz) (fun z hz => by
    rw [if_pos hz, if_neg]
    show z.ptr ≠ _
    rw [hz]; decide)
  obtain ⟨gg, cg⟩ := one mg pg hgc hg hgp (.inr rfl) gd (fun z hz => by rw [if_neg (by rw [hz]; decide)]; exact hz) (fun z hz => by
    have : ¬ z.ptr = P.plt := by rw [hz]; decide
    simp only [if_neg this, if_pos hz])
  have ap := h.same_addr hf post1 mp ht (by rw [htp, pp])
  have ag := h.same_addr hf post1 mg hg (by rw [hgp, pg])
  rw [ap, ag] at hhead hloop
  have dp : pc.data = st.scanned.plt.chunk := by
    have : (st.growth P.plt).add = [st.scanned.plt.chunk] := rfl
    rw [this] at gp; exact ((List.cons.inj gp).1).symm
  have dg : gc.data = List.replicate (8 * (st.scanned.gotPlt.length + 3)) 0 := by
    have : (st.growth P.gotPlt).add = [List.replicate (8 * (st.scanned.gotPlt.length + 3)) 0] := rfl
    rw [this] at gg; exact ((List.cons.inj gg).1).symm
  have hpl : st.scanned.plt.length = ks.length := by have := hI.plt; simp only at this; rw [this]; simp
  have hgl : st.scanned.gotPlt.length = ks.length := by have := hI.gotPlt; simp only at this; rw [this]; simp
  obtain ⟨x1, x2, x3, x4, x5⟩ := patchPltHeader_facts hhead
  -- the symbol table during patching
  have et : st.entries.symtab = st.dynrel.symtab := by
    have := (patchPlt_post st.hpatch).2
    rw [← st.patched_tables.1, this]
  have eg : st.entries.gotPlt = st.scanned.gotPlt := by
    have := (patchPlt_post st.hpatch).2
    rw [← L.slots, ← st.patched_tables.2.2.1, this]
  rw [et, eg] at hloop
  have hgot := hI.gotPlt
  simp only at hgot
  have hkeys : AMap.keys st.scanned.gotPlt = ks := by
    rw [hgot]; simp [AMap.keys, Function.comp_def]
  rw [hkeys] at hloop
  have hget : ∀ r, AMap.get? st.scanned.gotPlt r = if r ∈ ks then some ((ks.idxOf r + 3) * 8) else none := by
    intro r
    rw [hgot, AMap.get?_map_value (f := fun i => (i + 3) * 8), get?_zipIdx]
    split <;> simp
  have hes : ((sched.gotPltIter ks).filterMap fun r => (AMap.get? st.scanned.gotPlt r).map fun o => (r, o)) =
      (sched.gotPltIter ks).map fun r => (r, (ks.idxOf r + 3) * 8) := by
    have hsub : ∀ r ∈ sched.gotPltIter ks, r ∈ ks := fun r hr => (h.valid.gotPltIter ks).mem_iff.1 hr
    revert hsub
    generalize sched.gotPltIter ks = l
    intro hsub
    induction l with
    | nil => rfl
    | cons r l ih =>
      rw [List.filterMap_cons, hget, if_pos (hsub r (by simp)), List.map_cons, ih fun r hr => hsub r (by simp [hr])]
      rfl
  rw [hes] at hloop
  have hperm := h.valid.gotPltIter ks
  have hidx : ∀ r ∈ ks, ∀ r' ∈ ks, ks.idxOf r = ks.idxOf r' → r = r' := by
    intro r hr r' hr' e
    have h1 := List.getElem_idxOf (List.idxOf_lt_length_of_mem hr)
    have h2 := List.getElem_idxOf (List.idxOf_lt_length_of_mem hr')
    simp only [e] at h1
    rw [← h1, h2]
  have hin : ∀ r ∈ ks, ∀ s i, st.dynrel.symtab.get r = some s → s.inPlt = some i → i = ks.idxOf r := by
    intro r hr s i hs hi
    obtain ⟨s1, hs1, hv⟩ := SymbolTable.view_get_some L.tab hs
    have e : s.inPlt = s1.inPlt := congrArg (·.inPlt) hv
    have := (hI.inPlt r s1 hs1).1
    rw [← e, hi, hI.plt, get?_zipIdx, if_pos hr] at this
    simpa using this
  obtain ⟨l1, l2, y1, y2, y3⟩ := patchPlt_loop hloop (by
      rw [List.map_map]
      have hnd := hperm.nodup_iff.2 hI.nodup
      unfold List.Nodup at hnd ⊢
      rw [List.pairwise_map]
      refine hnd.imp_of_mem ?_
      intro r r' hr hr' hne e
      simp only [Function.comp] at e
      rw [hperm.mem_iff] at hr hr'
      exact hne (hidx r hr r' hr' (by omega))) (by
      intro e he s i hs hi
      simp only [List.mem_map] at he
      obtain ⟨r, hr, rfl⟩ := he
      rw [hperm.mem_iff] at hr
      rw [hin r hr s i hs hi])
  refine ⟨⟨x1, x2⟩, ?_, ?_, ?_, ?_, ?_⟩
  · rw [cp, y1 0 16 (by intro e _ i _; omega)]
    apply x4
    rw [dp]; unfold Plt.chunk
    rw [slice_append_left (by decide)]; rfl
  · rw [cp, l1, x3, dp, Plt.length_chunk, Plt.size, hpl]; simp [PLT_ENTRY_SIZE]; omega
  · rw [cg, l2, dg, List.length_replicate, hgl]
  · rw [cg, y2 0 24 (by intro e he; simp only [List.mem_map] at he; obtain ⟨r, _, rfl⟩ := he; simp only; omega), dg]
    unfold slice
    rw [List.drop_zero, List.take_replicate]
    congr 1
  · intro i r hr
    have hlt : i < ks.length := (List.getElem?_eq_some_iff.1 hr).1
    have hmem := List.mem_of_getElem? hr
    have hix : ks.idxOf r = i := by
      obtain ⟨_, e⟩ := List.getElem?_eq_some_iff.1 hr
      rw [← e]; exact hI.nodup.idxOf_getElem i hlt
    obtain ⟨s, k, j, hs, hk, hj, hoff, D⟩ := y3 (r, (ks.idxOf r + 3) * 8) (List.mem_map.2 ⟨r, hperm.mem_iff.2 hmem, rfl⟩)
    have hk' := hin r hmem s k hs hk
    rw [hix] at hk'
    subst hk'
    rw [hix] at D
    refine ⟨s, j, hs, hj, D.d1, D.d2, D.addr, ?_, ?_⟩
    · rw [cp]
      apply D.code
      rw [x5 _ _ (by omega), dp]
      exact Plt.slice_chunk _ (by rw [hpl]; exact hlt)
    · rw [cg]; exact D.word

end Dld
