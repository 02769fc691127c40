import Verif.Lemmas.HistSyms
import Verif.Lemmas.Chunks
import Verif.Lemmas.DynRels
/-! # Imported symbols in histories -/
namespace Dld
open Writer Spec StringTable

variable {opts : Options} {ops : List Op} {w : Writer}

theorem SymbolTable.addSymbol_keeps {t t' : SymbolTable} {s : Sym} {h g : UInt32} {p : Path} {r r' : SymbolRef} {x : Symbol}
    (ha : t.addSymbol s h g p = .ok (t', r)) (hx : t.get r' = some x) : ∃ y, t'.get r' = some y ∧ y.dynamic = x.dynamic := by
  unfold SymbolTable.addSymbol at ha
  by_cases hs : stType s.st_info = STT_SECTION
  · rw [if_pos hs] at ha
    cases ha
    cases r' with
    | named n => exact ⟨x, hx, rfl⟩
    | «section» k i =>
      simp only [SymbolTable.get, AMap.get?_insert] at hx ⊢
      split
      · next e =>
        subst e
        cases hg : AMap.get? t.sectionSyms s.st_shndx with
        | none => rw [hg] at hx; simp at hx
        | some l =>
          rw [hg] at hx
          simp only [Option.bind_some] at hx
          refine ⟨x, ?_, rfl⟩
          obtain ⟨hi, _⟩ := List.getElem?_eq_some_iff.1 hx
          simp only [Option.bind_some, Option.getD_some]
          rw [List.getElem?_append_left hi, hx]
      · exact ⟨x, hx, rfl⟩
  · rw [if_neg hs] at ha
    split at ha
    · next old ho =>
      split at ha
      · cases ha
      · next y hy =>
        cases ha
        cases r' with
        | «section» k i => exact ⟨x, hx, rfl⟩
        | named n =>
          simp only [SymbolTable.get, AMap.get?_modify] at hx ⊢
          split
          · next e =>
            subst e
            rw [ho] at hx ⊢
            cases hx
            exact ⟨y, rfl, by rw [(SymbolTable.resolve_keeps hy).1]⟩
          · exact ⟨x, hx, rfl⟩
    · next ho =>
      cases ha
      cases r' with
      | «section» k i => exact ⟨x, hx, rfl⟩
      | named n =>
        simp only [SymbolTable.get, AMap.get?_append] at hx ⊢
        rw [hx]; exact ⟨x, rfl, rfl⟩

theorem Spec.ImportedIn.of_snoc {op : Op} {n : Name} (h : ImportedIn (ops ++ [op]) n) :
    ImportedIn ops n ∨ (∃ e path d, op = .dynsym e n path d) ∧ n ∈ symNames ops := by
  obtain ⟨a, e, path, d, b, h1, s, sec, p, r, h2⟩ := h
  rcases List.eq_nil_or_concat b with rfl | ⟨b', x, rfl⟩
  · right
    have := List.append_inj' h1 rfl
    obtain ⟨rfl, h3⟩ := this
    cases h3
    exact ⟨⟨e, path, d, rfl⟩, mem_symNames h2⟩
  · left
    rw [List.concat_eq_append, ← List.cons_append, ← List.append_assoc] at h1
    have := List.append_inj' h1 rfl
    exact ⟨a, e, path, d, b', this.1, s, sec, p, r, h2⟩

/-- a symbol offered by a library after it was mentioned is marked -/
theorem Hist.imported (h : Hist opts ops w) {ns : List Name} (hs : internAll [[]] (symNames ops) <+: ns) {n : Name} (hi : ImportedIn ops n) :
    Imported w.symtab (.named (u32 (nameOff ns n))) := by
  induction h with
  | init h => obtain ⟨a, e, path, d, b, h1, _⟩ := hi; simp at h1
  | @step ops op w w' h hstep ih =>
    obtain ⟨f, hf, hh1, hh2⟩ := h.strs
    have hI := h.syms hf (List.prefix_refl _) (List.prefix_refl _)
    have p1 : internAll [[]] (symNames ops) <+: ns := by
      rw [symNames_append, internAll_append] at hs
      exact (internAll_prefix _ _).trans hs
    have ih := ih p1
    have old : ∀ t : SymbolTable, (∀ r s, w.symtab.get r = some s → s.dynamic.isSome = true → ∃ s', t.get r = some s' ∧ s'.dynamic.isSome = true) →
        ImportedIn ops n → Imported t (.named (u32 (nameOff ns n))) := by
      intro t ht hi
      obtain ⟨s, h1, h2⟩ := ih hi
      obtain ⟨s', h3, h4⟩ := ht _ s h1 h2
      exact ⟨s', h3, h4⟩
    have same : ∀ {w' : Writer}, w'.symtab = w.symtab → (∀ r s, w.symtab.get r = some s → s.dynamic.isSome = true → ∃ s', w'.symtab.get r = some s' ∧ s'.dynamic.isSome = true) := by
      intro w' e r s h1 h2; exact ⟨s, by rw [e]; exact h1, h2⟩
    cases hstep with
    | push h =>
      rcases hi.of_snoc with hi | ⟨⟨e, p, d, he⟩, _⟩
      · exact old _ (same (Step.tables (.push h) rfl (by simp)).1) hi
      · cases he
    | reloc h =>
      rcases hi.of_snoc with hi | ⟨⟨e, p, d, he⟩, _⟩
      · exact old _ (same (Step.tables (.reloc h) rfl (by simp)).1) hi
      · cases he
    | needed =>
      rcases hi.of_snoc with hi | ⟨⟨e, p, d, he⟩, _⟩
      · exact old _ (same rfl) hi
      · cases he
    | @sym _ s sec m path r h =>
      rcases hi.of_snoc with hi | ⟨⟨e, p, d, he⟩, _⟩
      · refine old _ ?_ hi
        simp only [Writer.addSymbol] at h
        split at h
        · cases h
        · next t r1 ha =>
          simp only [bind_ok] at h
          obtain ⟨w1, h1, h2⟩ := h
          cases h2
          intro r' x hx hxd
          have : w'.symtab = t := by rw [noteSymbol_rest h1]
          rw [this]
          obtain ⟨y, hy, hyd⟩ := SymbolTable.addSymbol_keeps ha hx
          exact ⟨y, hy, by rw [hyd]; exact hxd⟩
      · cases he
    | @dynsym _ s m path r h =>
      simp only [Writer.addDynSymbol] at h
      split at h
      · cases h
      · next t r1 ha =>
        split at h
        · next hnone =>
          cases h
          rcases hi.of_snoc with hi | ⟨⟨e, p, d, he⟩, hm⟩
          · exact old _ (fun r s h1 h2 => ⟨s, h1, h2⟩) hi
          · cases he
            exfalso
            have hn : n ∈ internAll [[]] (symNames ops) := mem_internAll.2 (.inr hm)
            have hnone : w.symstr.get n = none := hnone
            rw [StringTable.get, hh1.get?_mem hn] at hnone
            cases hnone
        · next e he =>
          have he : w.symstr.get m = some e := he
          split at h
          · cases h
          · next x hx =>
            have hx : w.symtab.get (.named (u32 e.offset)) = some x := hx
            cases h
            rcases hi.of_snoc with hi | ⟨⟨e', p, d, he'⟩, hm⟩
            · refine old _ ?_ hi
              intro r' y h1 h2
              simp only [SymbolTable.get_modify]
              split
              · rw [h1]; exact ⟨_, rfl, rfl⟩
              · exact ⟨y, h1, h2⟩
            · cases he'
              have hn : n ∈ internAll [[]] (symNames ops) := mem_internAll.2 (.inr hm)
              rw [StringTable.get, hh1.get?_mem hn] at he
              simp only [Option.map_some, Option.some.injEq] at he
              have ho : nameOff ns n = e.offset := by rw [← he, nameOff_prefix p1 hn]; rfl
              rw [ho]
              exact ⟨{ x with dynamic := some r }, by simp only [SymbolTable.get_modify, if_true, hx]; rfl, rfl⟩

/-- the relocations in the writer are those of the calls -/
theorem Hist.mem_relocsOf (h : Hist opts ops w) (rel : Rela) (r : SymbolRef) :
    (rel, r) ∈ relocsOf w ↔ ∃ sr path, Op.reloc rel r sr path ∈ ops := by
  have hC := h.cinv
  obtain ⟨w0, pn, h0, hI⟩ := h.winv
  have hnd := hI.ptrs_nodup h0
  constructor
  · intro hm
    simp only [relocsOf, List.mem_flatMap] at hm
    obtain ⟨s, hs, c, hc, he⟩ := hm
    obtain ⟨i, hi, rfl⟩ := List.getElem_of_mem hc
    have hat : w.chunkAt ⟨s.ptr, i⟩ = some s.chunks[i] := by
      unfold chunkAt
      cases hf : w.sections.find? (fun t => t.ptr == s.ptr) with
      | none => rw [List.find?_eq_none] at hf; exact absurd (beq_self_eq_true s.ptr) (hf s hs)
      | some t =>
        have e := eq_of_ptr hnd (List.mem_of_find?_eq_some hf) hs (by simpa using List.find?_some hf)
        subst e
        simp [hi]
    rw [(hC.chunk _ _ hat).2.1] at he
    obtain ⟨path, hp⟩ := mem_relocsAt.1 he
    exact ⟨_, path, hp⟩
  · rintro ⟨sr, path, hm⟩
    have hr : (rel, r) ∈ relocsAt sr ops := mem_relocsAt.2 ⟨path, hm⟩
    cases hc : w.chunkAt sr with
    | none => rw [(hC.absent sr hc).1] at hr; cases hr
    | some c =>
      rw [← (hC.chunk sr c hc).2.1] at hr
      unfold chunkAt at hc
      rw [Option.bind_eq_some_iff] at hc
      obtain ⟨s, hs, hc⟩ := hc
      simp only [relocsOf, List.mem_flatMap]
      exact ⟨s, List.mem_of_find?_eq_some hs, c, List.mem_of_getElem? hc, hr⟩

/-- the result of the scan -/
theorem Writer.Early.scan {sched : Sched} (st : Early sched w) (h : Hist opts ops w) :
    ∃ ks gs, ScanInv w.symtab (relocsOf w) ks gs
        { symtab := st.scanned.symtab, plt := st.scanned.plt, gotPlt := st.scanned.gotPlt, gotLen := st.scanned.gotLen } ∧
      relocsOf st.scanned = (relocsOf w).map (Dld.scanned w.symtab) := by
  obtain ⟨ns, nd, hT⟩ := h.tableFacts
  have hu := h.untouched
  have hI : ScanInv w.symtab [] [] [] { symtab := w.symtab, plt := w.plt, gotPlt := w.gotPlt, gotLen := w.gotLen } :=
    ScanInv.init (st := { symtab := w.symtab, plt := w.plt, gotPlt := w.gotPlt, gotLen := w.gotLen }) hu.plt hu.gotPlt hu.gotLen
      fun r s hs => ⟨(hT.blank r s hs).1, (hT.blank r s hs).2.1, (hT.blank r s hs).2.2.1⟩
  obtain ⟨ks, gs, h1, h2⟩ := hI.all (scan_flat st.hscan)
  exact ⟨ks, gs, by simpa using h1, h2⟩


/-! ### The dynamic relocations of a link -/

/-- the keys of `dyn_sym_indices` -/
theorem dynSymIndices_get {l : List Symbol} {n i : Nat} (h : AMap.get? (dynSymIndices l) n = some i) :
    ∃ s, l[i]? = some s ∧ s.sym.st_name = n := by
  have key : ∀ (l : List (Symbol × Nat)) (m : List (Nat × Nat)),
      AMap.get? (l.foldl (fun m e => AMap.insert m e.1.sym.st_name e.2) m) n = some i →
      AMap.get? m n = some i ∨ ∃ e ∈ l, e.2 = i ∧ e.1.sym.st_name = n := by
    intro l
    induction l with
    | nil => intro m h; exact .inl h
    | cons e l ih =>
      intro m h
      rw [List.foldl_cons] at h
      rcases ih _ h with h | ⟨e', h1, h2⟩
      · rw [AMap.get?_insert] at h
        split at h
        · next he => cases h; exact .inr ⟨e, by simp, rfl, he⟩
        · exact .inl h
      · exact .inr ⟨e', by simp [h1], h2⟩
  rcases key _ _ h with h | ⟨e, he, h1, h2⟩
  · cases h
  · obtain ⟨s, j⟩ := e
    subst h1
    rw [List.mem_zipIdx_iff_getElem?] at he
    exact ⟨s, he, h2⟩

/-- a successful loop has an import for every marked symbol -/
theorem dynRelStep_all {ix : List (Nat × Nat)} {st st' : DynState} {ks : List Nat} (h : foldM' (dynRelStep ix) st ks = .ok st')
    {k : Nat} (hk : k ∈ ks) {s : Symbol} {d : SymbolRef} (hs : AMap.get? st.symtab.symbols k = some s) (hd : s.dynamic = some d) :
    ∃ m, importOf ix st.symtab st.dynsym k = some m := by
  induction ks generalizing st s with
  | nil => cases hk
  | cons k' ks ih =>
    rw [foldM'_cons, bind_ok] at h
    obtain ⟨st1, h1, h2⟩ := h
    obtain ⟨v1, v2⟩ := dynRelStep_view (F := unrel) (G := unplace) (fun _ _ => rfl) unplace_blind h1
    rw [List.mem_cons] at hk
    by_cases e : k = k'
    · subst e
      simp only [dynRelStep, bind_ok, unwrap_ok] at h1
      obtain ⟨sym, hsym, h1⟩ := h1
      rw [hs] at hsym; cases hsym
      rw [hd] at h1
      simp only [bind_ok, unwrap_ok] at h1
      obtain ⟨i, hi, ds, hds, h1⟩ := h1
      have hds' : st.dynsym.get d = some ds := by
        cases hg : s.inGot <;> rw [hg] at hds <;> exact hds
      unfold importOf
      simp only [hs, Option.bind_some, hd, hi, hds', Option.map_some]
      exact ⟨_, rfl⟩
    · rcases hk with hk | hk
      · exact absurd hk e
      · obtain ⟨s1, hs1, hv⟩ := SymbolTable.view_get_some v1.symm (r := .named k) hs
        have : s.dynamic = s1.dynamic := congrArg (·.dynamic) hv
        rw [← importOf_view v1 v2]
        exact ih h2 hk (s := s1) hs1 (by rw [← this]; exact hd)

/-- the imports of a link in the order of their relocations -/
def Writer.Early.imports {sched : Sched} (st : Early sched w) : List Import :=
  (sched.symIter (AMap.keys w.symtab.symbols)).filterMap
    (importOf (dynSymIndices (w.dynsym.sorted sched.dynIter)) st.scanned.symtab w.dynsym)

/-- the dynamic relocations of a link -/
structure LinkRels (sched : Sched) (st : Early sched w) : Prop where
  tab : st.dynrel.symtab.view unrel = st.scanned.symtab.view unrel
  dyn : st.dynrel.dynsym.view unplace = w.dynsym.view unplace
  dynRels : st.dynrel.dynRels = dynRelsFrom 0 st.imports
  pltRels : st.dynrel.pltRels = (called st.imports).map fun e => rela e.2 e.1.index 7
  size : st.dynrel.copyRel.size = copyEnd 0 st.imports
  pos : ∀ k s', AMap.get? st.dynrel.symtab.symbols k = some s' →
    (∃ j e, (called st.imports)[j]? = some e ∧ e.1.key = k ∧ s'.relocationOffset = some j) ∨
    ((∀ e ∈ called st.imports, e.1.key ≠ k) ∧ s'.relocationOffset = none)
  value : ∀ r s', st.dynrel.dynsym.get r = some s' →
    (∃ e ∈ copiesFrom 0 st.imports, e.1.ref = r ∧ s'.sym.st_value = e.2.1) ∨
    ((∀ e ∈ copiesFrom 0 st.imports, e.1.ref ≠ r) ∧ ∃ s, w.dynsym.get r = some s ∧ s'.sym.st_value = s.sym.st_value)
  all : ∀ k s d, AMap.get? w.symtab.symbols k = some s → s.dynamic = some d →
    ∃ m ∈ st.imports, m.key = k
  slots : st.dynrel.gotPlt = st.scanned.gotPlt

theorem Writer.Early.linkRels {sched : Sched} (st : Early sched w) (hv : sched.Valid) (h : Hist opts ops w) : LinkRels sched st := by
  obtain ⟨ns, nd, hT⟩ := h.tableFacts
  have hu := h.untouched
  obtain ⟨q1, q2, q3, _, _, q6, q7, q8, _⟩ := st.filled_tables
  have hd := st.hdynrel
  simp only [genDynRels, bind_ok] at hd
  obtain ⟨d, hd, he⟩ := hd
  have e1 : (st.filled.expandRest sched).symtab = st.scanned.symtab := q1
  have e2 : (st.filled.expandRest sched).dynsym = w.dynsym := q2
  have e3 : (st.filled.expandRest sched).copyRel = {} := q6.trans hu.copyRel
  have e4 : (st.filled.expandRest sched).dynRels = [] := q7.trans hu.dynRels
  have e5 : (st.filled.expandRest sched).pltRels = [] := q8.trans hu.pltRels
  have e6 : (st.filled.expandRest sched).gotPlt = st.scanned.gotPlt := q3
  rw [e1, e2, e3, e4, e5] at hd
  have hscan := SymbolTable.view_keys (scan_view unscan_blind st.hscan)
  rw [hscan] at hd
  have hn : (sched.symIter (AMap.keys w.symtab.symbols)).Nodup := (hv.symIter _).nodup_iff.2 hT.nodup
  have F := dynRelStep_loop hn hd
  have hx : ∀ x, x = st.dynrel → x.symtab = st.dynrel.symtab := fun x e => by rw [e]
  have r1 : st.dynrel.symtab = d.symtab := by rw [← Except.ok.inj he]; rfl
  have r2 : st.dynrel.dynsym = d.dynsym := by rw [← Except.ok.inj he]; rfl
  have r3 : st.dynrel.copyRel = d.copyRel := by rw [← Except.ok.inj he]; rfl
  have r4 : st.dynrel.dynRels = d.dynRels := by rw [← Except.ok.inj he]; rfl
  have r5 : st.dynrel.pltRels = d.pltRels := by rw [← Except.ok.inj he]; rfl
  have r6 : st.dynrel.gotPlt = st.scanned.gotPlt := by rw [← Except.ok.inj he]; exact e6
  obtain ⟨f1, f2, f3, f4, f5, f6, f7⟩ := F
  simp only [List.nil_append, List.length_nil, Nat.zero_add] at f1 f2 f3 f4 f5 f6 f7
  refine ⟨by rw [r1]; exact f1, by rw [r2]; exact f2, by rw [r4]; exact f3, by rw [r5]; exact f4, by rw [r3]; exact f5, ?_, ?_, ?_, r6⟩
  · intro k s' hs'
    rw [r1] at hs'
    rcases f6 k s' hs' with h | ⟨h1, s, h2, h3⟩
    · exact .inl h
    · refine .inr ⟨h1, ?_⟩
      obtain ⟨s0, hs0, hv0⟩ := SymbolTable.view_get_some (scan_view unscan_blind st.hscan) (r := .named k) h2
      have : s.relocationOffset = s0.relocationOffset := congrArg (·.relocationOffset) hv0
      rw [h3, this]; exact (hT.blank _ _ hs0).2.2.2
  · intro r s' hs'
    rw [r2] at hs'
    exact f7 r s' hs'
  · intro k s dd hk hdd
    obtain ⟨s1, hs1, hv1⟩ := SymbolTable.view_get_some (scan_view unscan_blind st.hscan).symm (r := .named k) hk
    have : s.dynamic = s1.dynamic := congrArg (·.dynamic) hv1
    have hmem : k ∈ sched.symIter (AMap.keys w.symtab.symbols) := by
      rw [(hv.symIter _).mem_iff]
      exact AMap.get?_isSome.1 (by rw [hk]; rfl)
    obtain ⟨m, hm⟩ := dynRelStep_all hd hmem (s := s1) hs1 (by rw [← this]; exact hdd)
    exact ⟨m, List.mem_filterMap.2 ⟨k, hmem, hm⟩, importOf_key hm⟩

end Dld
