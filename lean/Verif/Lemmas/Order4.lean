import Verif.Lemmas.Order3
import Verif.Lemmas.Image
/-! # Two links of the same calls with different hash-map orders: the whole run -/
namespace Dld
open Writer

variable {full : Bool} {sched sched' : Sched} {opts : Options} {ops : List Op} {w : Writer}

theorem early_alike (hv : sched.Valid) (hv' : sched'.Valid) (h : Hist opts ops w) (hs : SameSort sched sched') (st : Early sched w)
    (st' : Early sched' w) (hc : full = true → ∀ m ∈ st.imports, m.copy = none) : Alike full st.entries st'.entries := by
  have a0 : Alike full (resizeGotPlt (resizeGot st.scanned)) (resizeGotPlt (resizeGot st'.scanned)) := by
    rw [scanned_same st st']; exact Alike.refl _
  have a1 : Alike full (expandDynsym sched (resizeGotPlt (resizeGot st.scanned))) (expandDynsym sched' (resizeGotPlt (resizeGot st'.scanned))) :=
    a0.modSec fun s t _ hst => expand_alike hv hv' a0 (by rw [scanned_same st st']) (by rw [scanned_same st st']) hst
  obtain ⟨a2, l1, l2⟩ := fillHashes_alike hv hv' a1 st.hfill st'.hfill
  have a3 : Alike full (st.filled.expandRest sched) (st'.filled.expandRest sched') := by
    refine a2.withSections (map_alike a2.sections fun s t hst => ?_)
    have hsh : s.sh = t.sh := (congrArg Section.sh hst :)
    rw [← hsh]
    by_cases c : s.sh.sh_type ≠ SHT_DYNSYM
    · rw [if_pos c, if_pos c]; exact expand_alike hv hv' a2 l1 l2 hst
    · rw [if_neg c, if_neg c]; exact hst
  have L := st.linkRels hv h
  have L' := st'.linkRels hv' h
  have hp := imports_perm hv hv' st st'
  have hdl : st.dynrel.dynRels.length = st'.dynrel.dynRels.length := by
    rw [L.dynRels, L'.dynRels, dynRelsFrom_length, dynRelsFrom_length]
    exact (hp.map _).sum_nat
  have hpl : st.dynrel.pltRels.length = st'.dynrel.pltRels.length := by
    rw [L.pltRels, L'.pltRels, List.length_map, List.length_map, called_length, called_length]
    exact (hp.map _).sum_nat
  have hcs : st.dynrel.copyRel.size = st'.dynrel.copyRel.size := by
    rw [L.size, L'.size, copyEnd_sum, copyEnd_sum]
    exact congrArg _ (hp.map _).sum_nat
  have a4 : Alike full st.dynrel st'.dynrel := by
    have hsym : st.dynrel.symtab.strip = st'.dynrel.symtab.strip := by
      rw [SymbolTable.strip_of_view L.tab, SymbolTable.strip_of_view L'.tab, scanned_same st st']
    have hc' : full = true → ∀ m ∈ st'.imports, m.copy = none := by
      intro hf m hm
      have : m.plain ∈ st.imports.map Import.plain := hp.mem_iff.2 (List.mem_map.2 ⟨m, hm, rfl⟩)
      obtain ⟨m', h1, h2⟩ := List.mem_map.1 this
      have := hc hf m' h1
      have hcc : m'.copy = m.copy := (congrArg Import.copy h2 :)
      rw [← hcc]
      exact this
    obtain ⟨q1, q2, q3, _, _, q6, q7, q8, _⟩ := st.filled_tables
    obtain ⟨q1', q2', q3', _, _, q6', q7', q8', _⟩ := st'.filled_tables
    have e1 := st.hdynrel
    have e2 := st'.hdynrel
    simp only [genDynRels, bind_ok] at e1 e2
    obtain ⟨d, e1, r1⟩ := e1
    obtain ⟨d', e2, r2⟩ := e2
    have hr1 := Except.ok.inj r1
    have hr2 := Except.ok.inj r2
    have vd : ∀ {ix : List (Nat × Nat)} {ks : List Nat} {z z' : DynState}, foldM' (dynRelStep ix) z ks = .ok z' → z'.dynsym.view unplace = z.dynsym.view unplace := by
      intro ix ks z z' hz
      refine foldM'_invariant (fun x : DynState => x.dynsym.view unplace = z.dynsym.view unplace) hz rfl ?_
      intro x k x' _ hx hk
      exact (dynRelStep_view (F := unrel) (G := unplace) (fun _ _ => rfl) unplace_blind hk).2.trans hx
    have v1 := vd e1
    have v2 := vd e2
    have w1 : st.filled.dynsym = w.dynsym := q2
    have w2 : st'.filled.dynsym = w.dynsym := q2'
    have hsec : Alike full st.dynrel st'.dynrel := by
      have hd : d.dynRels.length = d'.dynRels.length := by
        have := hdl; rw [← hr1, ← hr2] at this; exact this
      have hpp : d.pltRels.length = d'.pltRels.length := by
        have := hpl; rw [← hr1, ← hr2] at this; exact this
      rw [← hr1, ← hr2]
      refine Alike.modSec (Alike.modSec ?_ fun s t _ hst => ?_) fun s t _ hst => ?_
      · refine ⟨a3.sections, a3.eh, a3.gotLen, a3.gotPlt, a3.dynEntries, a3.programHeaders, a3.pVaddr, a3.startPVaddr, a3.fileOffset, a3.shstr, a3.symstr, a3.dynstr, a3.plt, ?_, ?_, ?_, fun hf => ?_, hd, hpp, ?_⟩
        · have := hsym; rw [← hr1, ← hr2] at this; exact this
        · have k1 := congrArg (fun v : View _ => v.symbols.length) v1
          have k2 := congrArg (fun v : View _ => v.symbols.length) v2
          simp only [SymbolTable.view, List.length_map] at k1 k2
          show d.dynsym.symbols.length = d'.dynsym.symbols.length
          rw [k1, k2]; exact a3.dynLen
        · have k1 := congrArg View.numLocals v1
          have k2 := congrArg View.numLocals v2
          simp only [SymbolTable.view] at k1 k2
          show d.dynsym.numLocals = d'.dynsym.numLocals
          rw [k1, k2]; exact a3.dynLocals
        · show d.dynsym = d'.dynsym
          have n1 := dynRelStep_nocopy e1 (fun k hk m hm => hc hf m (by
            unfold Early.imports
            refine List.mem_filterMap.2 ⟨k, ?_, ?_⟩
            · have : (st.filled.expandRest sched).symtab = st.scanned.symtab := q1
              rw [this, SymbolTable.view_keys (scan_view unscan_blind st.hscan)] at hk
              exact hk
            · have t1 : (st.filled.expandRest sched).symtab = st.scanned.symtab := q1
              have t2 : (st.filled.expandRest sched).dynsym = w.dynsym := q2
              rw [← t1, ← t2]; exact hm))
          have n2 := dynRelStep_nocopy e2 (fun k hk m hm => hc' hf m (by
            unfold Early.imports
            refine List.mem_filterMap.2 ⟨k, ?_, ?_⟩
            · have : (st'.filled.expandRest sched').symtab = st'.scanned.symtab := q1'
              rw [this, SymbolTable.view_keys (scan_view unscan_blind st'.hscan)] at hk
              exact hk
            · have t1 : (st'.filled.expandRest sched').symtab = st'.scanned.symtab := q1'
              have t2 : (st'.filled.expandRest sched').dynsym = w.dynsym := q2'
              rw [← t1, ← t2]; exact hm))
          rw [n1, n2]
          exact a3.dynsym hf
        · have := hcs; rw [← hr1, ← hr2] at this; exact this
      · show (setSize (d.dynRels.length * sizeofRela) s).blur full = (setSize (d'.dynRels.length * sizeofRela) t).blur full
        rw [hd]; exact setSize_alike hst _
      · show (setSize (d.pltRels.length * sizeofRela) s).blur full = (setSize (d'.pltRels.length * sizeofRela) t).blur full
        rw [hpp]; exact setSize_alike hst _
    exact hsec
  have a5 := sizeDynamic_alike a4 st.hdynamic st'.hdynamic
  have a6 := sortSecs_alike hs a5 st.hsort st'.hsort
  exact addDynEntries_alike (genProgramHeaders_alike a6) st.hentries st'.hentries

theorem stages_alike (hv : sched.Valid) (hv' : sched'.Valid) (h : Hist opts ops w) (hs : SameSort sched sched') (st : Stages sched w)
    (st' : Stages sched' w) (hc : full = true → ∀ m ∈ st.imports, m.copy = none) : Alike full st.final st'.final :=
  finish_alike (tables_alike (reloc_alike (special_alike (patchPlt_alike (early_alike hv hv' h hs st.toEarly st'.toEarly hc) st.hpatch st'.hpatch)
    st.hspecial st'.hspecial) st.hreloc st'.hreloc) st.htables st'.htables) st.hfinal st'.hfinal

/-! ### Writing -/

theorem finalize_alike (hv : sched.Valid) (hv' : sched'.Valid) {a b : Writer} (h : Alike full a b) {s t s' t' : Section} (hst : s.blur full = t.blur full)
    (hs : finalizeSec sched a s = .ok s') (ht : finalizeSec sched' b t = .ok t') : s'.blur full = t'.blur full := by
  have tail : ∀ {u v : Section}, u.blur full = v.blur full → (match u.link with
      | none => .ok u
      | some p => do
        let l ← a.sec p
        .ok { u with sh := { u.sh with sh_link := u32 l.index } }) = (.ok s' : M Section) → (match v.link with
      | none => .ok v
      | some p => do
        let l ← b.sec p
        .ok { v with sh := { v.sh with sh_link := u32 l.index } }) = (.ok t' : M Section) → s'.blur full = t'.blur full := by
    intro u v huv e f
    have huvl : u.link = v.link := (congrArg Section.link huv :)
    cases hl : u.link with
    | none =>
      have hl' : v.link = none := by rw [← huvl]; exact hl
      rw [hl] at e; rw [hl'] at f; cases e; cases f; exact huv
    | some p =>
      have hl' : v.link = some p := by rw [← huvl]; exact hl
      rw [hl] at e; rw [hl'] at f
      simp only [bind_ok] at e f
      obtain ⟨l, e1, e⟩ := e
      obtain ⟨l', f1, f⟩ := f
      have hi : l.index = l'.index := (congrArg Section.index (h.sec e1 f1) :)
      rw [← Except.ok.inj e, ← Except.ok.inj f, hi]
      have := Section.blur_sh huv fun x => { x with sh_link := u32 l'.index }
      rw [hl, hl'] at this
      exact this
  have hk : s.kind = t.kind := (congrArg Section.kind hst :)
  have swap : ∀ {u v : Section} {d e : Bytes}, s.loose = true → d.length = e.length → s.modifyChunk 0 (fun _ => { data := d }) = .ok u → t.modifyChunk 0 (fun _ => { data := e }) = .ok v →
      u.blur full = v.blur full := by
    intro u v d e hl hde hu hv
    obtain ⟨_, rfl⟩ := modifyChunk_ok hu
    obtain ⟨_, rfl⟩ := modifyChunk_ok hv
    obtain ⟨h1, h2, h3, h4, h5, h6⟩ := Section.blur_iff.1 hst
    have hk : s.keep full = false := by simp [Section.keep, hl]
    refine Section.blur_iff.2 ⟨h1, h2, h3, h4, h5, ?_⟩
    show (s.chunks.modify 0 _).map (Chunk.blur (s.keep full)) = (t.chunks.modify 0 _).map (Chunk.blur (s.keep full))
    rw [hk] at h6 ⊢
    cases hc : s.chunks with
    | nil => cases hc' : t.chunks with
      | nil => rfl
      | cons => rw [hc, hc'] at h6; cases h6
    | cons c cs => cases hc' : t.chunks with
      | nil => rw [hc, hc'] at h6; cases h6
      | cons c' cs' =>
        rw [hc, hc'] at h6
        simp only [List.map_cons, List.cons.injEq] at h6
        simp only [List.modify_zero_cons, List.map_cons, List.cons.injEq]
        exact ⟨by simp [Chunk.blur, hde], h6.2⟩
  unfold finalizeSec at hs ht
  rw [← hk] at ht
  cases hkk : s.kind <;> rw [hkk] at hs ht <;> simp only [bind_ok] at hs ht
  case symtab =>
    obtain ⟨u, hu, hs⟩ := hs
    obtain ⟨v, hv2, ht⟩ := ht
    refine tail (swap (by simp [Section.loose, hkk]) ?_ hu hv2) hs ht
    rw [SymbolTable.length_chunk hv.symIter, SymbolTable.length_chunk hv'.symIter]
    have := congrArg (fun t => t.symbols.length) h.symtab
    simp only [SymbolTable.strip, List.length_map] at this
    unfold SymbolTable.totalLen; rw [this]
  case dynsym =>
    obtain ⟨u, hu, hs⟩ := hs
    obtain ⟨v, hv2, ht⟩ := ht
    refine tail (swap (by simp [Section.loose, hkk]) ?_ hu hv2) hs ht
    rw [SymbolTable.length_chunk hv.dynIter, SymbolTable.length_chunk hv'.dynIter]
    unfold SymbolTable.totalLen; rw [h.dynLen]
  case copyRel =>
    obtain ⟨_, r1, hs⟩ := hs
    obtain ⟨_, r2, ht⟩ := ht
    cases r1; cases r2
    exact tail (u := setSize a.copyRel.size s) (v := setSize b.copyRel.size t) (by rw [h.copySize]; exact setSize_alike hst _) hs ht
  all_goals
    obtain ⟨_, r1, hs⟩ := hs
    obtain ⟨_, r2, ht⟩ := ht
    cases r1; cases r2
    exact tail hst hs ht

theorem write_alike (hv : sched.Valid) (hv' : sched'.Valid) {a b : Writer} (h : Alike full a b) : ∀ (l m : List Section) (o : Nat) (x y : Bytes) (l' m' : List Section),
    l.map (Section.blur full) = m.map (Section.blur full) → writeSections sched a o l = .ok (x, l') → writeSections sched' b o m = .ok (y, m') →
    l'.map (Section.blur full) = m'.map (Section.blur full) ∧ x.length = y.length := by
  intro l
  induction l with
  | nil => intro m o x y l' m' hlm e f; cases m with
    | nil => cases e; cases f; exact ⟨rfl, rfl⟩
    | cons => cases hlm
  | cons s l ih => intro m o x y l' m' hlm e f; cases m with
    | nil => cases hlm
    | cons t m =>
      simp only [List.map_cons, List.cons.injEq] at hlm
      simp only [writeSections, bind_ok, Prod.exists] at e f
      obtain ⟨s1, e1, x1, l1, e2, e3⟩ := e
      obtain ⟨t1, f1, y1, m1, f2, f3⟩ := f
      simp only [Except.ok.injEq, Prod.mk.injEq] at e3 f3
      have hst := finalize_alike hv hv' h hlm.1 e1 f1
      have hsh : s.sh = t.sh := (congrArg Section.sh hlm.1 :)
      obtain ⟨_, _, _, _, h5, h6⟩ := Section.blur_iff.1 hst
      have hsz : s1.sizeOnDisk = t1.sizeOnDisk := by unfold Section.sizeOnDisk; rw [h5]
      rw [← hsh, ← hsz] at f2
      obtain ⟨i1, i2⟩ := ih m _ _ _ _ _ hlm.2 e2 f2
      rw [← e3.1, ← e3.2, ← f3.1, ← f3.2]
      refine ⟨by simp only [List.map_cons, hst, i1], ?_⟩
      have hl : (s1.chunks.flatMap (·.data)).length = (t1.chunks.flatMap (·.data)).length := by
        have := congrArg (fun l : List Chunk => (l.map (·.data.length)).sum) h6
        simp only [List.map_map, Function.comp_def, Chunk.blur_length] at this
        simp only [List.length_flatMap]
        exact this
      simp only [List.length_append, List.length_replicate, i2, hl, hsh]

/-- the runs of two programs that visit their hash maps differently -/
theorem Run.alike {w' v' : Writer} {file g : Bytes} {secs tecs : List Section} (hs : SameSort sched sched') (h : Run opts ops sched w w' file secs)
    (h' : Run opts ops sched' w v' g tecs) (hv : sched.Valid) (hv' : sched'.Valid) (hc : full = true → ∀ st : Stages sched w, ∀ m ∈ st.imports, m.copy = none) :
    Alike full w' v' ∧ secs.map (Section.blur full) = tecs.map (Section.blur full) ∧ file.length = g.length := by
  obtain ⟨st, rfl⟩ := h.stages
  obtain ⟨st', rfl⟩ := h'.stages
  have hA := stages_alike hv hv' h.hist hs st st' fun hf => hc hf st
  have e1 := h.write
  have e2 := h'.write
  simp only [writeToDisk, bind_ok, Prod.exists] at e1 e2
  obtain ⟨x, l, e1, e3⟩ := e1
  obtain ⟨y, m, e2, f3⟩ := e2
  simp only [Except.ok.injEq, Prod.mk.injEq] at e3 f3
  rw [← hA.programHeaders] at e2
  obtain ⟨i1, i2⟩ := write_alike hv hv' hA _ _ _ _ _ _ _ hA.sections e1 e2
  refine ⟨hA, by rw [← e3.2, ← f3.2]; exact i1, ?_⟩
  have hl : l.length = m.length := by simpa using congrArg List.length i1
  rw [← e3.1, ← f3.1]
  simp only [List.length_append, i2, ← hA.eh, ← hA.programHeaders]
  unfold serVec
  rw [length_flatMap_const (k := 64) (f := fun s : Section => serSectionHeader s.sh) (fun s => length_serSectionHeader s.sh),
    length_flatMap_const (k := 64) (f := fun s : Section => serSectionHeader s.sh) (fun s => length_serSectionHeader s.sh), hl]

end Dld
