import Verif.Lemmas.Order4
import Verif.Lemmas.Terminates
import Verif.Lemmas.Blame
import Verif.Props.Got
import Verif.Props.Names
/-! # Two links of objects alone whose symbols have different hashes -/
namespace Dld
open Writer Spec

variable {opts : Options} {ops : List Op} {sched sched' : Sched} {w : Writer}

/-! ### Sorting distinct entries -/

/-- no two entries compare equal -/
def SymbolTable.Distinct (t : SymbolTable) : Prop :=
  ∀ k k' s s', AMap.get? t.symbols k = some s → AMap.get? t.symbols k' = some s' → s.isLocal = s'.isLocal → s.gnuHash = s'.gnuHash → k = k'

theorem SymbolTable.sortLe_antisymm {a b : Symbol} (h1 : sortLe a b = true) (h2 : sortLe b a = true) : a.isLocal = b.isLocal ∧ a.gnuHash = b.gnuHash := by
  unfold sortLe at h1 h2
  cases ha : a.isLocal <;> cases hb : b.isLocal <;> simp [ha, hb] at h1 h2 ⊢ <;> exact UInt32.toNat_inj.1 (by omega)

theorem SymbolTable.Distinct.sorted {t : SymbolTable} (h : t.Distinct) {o o' : List Nat → List Nat} (ho : ∀ l, (o l).Perm l) (ho' : ∀ l, (o' l).Perm l) :
    t.sorted o = t.sorted o' := by
  have tot : ∀ a b : Symbol, sortLe a b = true ∨ sortLe b a = true := by
    intro a b; unfold sortLe
    cases ha : a.isLocal <;> cases hb : b.isLocal <;> simp <;> omega
  have trans : ∀ a b c : Symbol, sortLe a b = true → sortLe b c = true → sortLe a c = true := by
    intro a b c; unfold sortLe
    cases ha : a.isLocal <;> cases hb : b.isLocal <;> cases hc : c.isLocal <;> simp <;> omega
  refine List.Perm.eq_of_pairwise (le := fun a b => sortLe a b = true) ?_ (stableSort_pairwise tot trans _) (stableSort_pairwise tot trans _)
    (SymbolTable.sorted_orders ho ho' t)
  intro a b ha hb h1 h2
  obtain ⟨k, hk⟩ := (SymbolTable.mem_sorted ho).1 ha
  obtain ⟨k', hk'⟩ := (SymbolTable.mem_sorted ho').1 hb
  obtain ⟨e1, e2⟩ := SymbolTable.sortLe_antisymm h1 h2
  obtain rfl := h k k' a b hk hk' e1 e2
  rw [hk] at hk'
  exact Option.some.inj hk'

/-- the fields of a symbol that are compared -/
def sortKey (s : Symbol) : Bool × UInt32 := (s.isLocal, s.gnuHash)

theorem sortKey_blind : Blind sortKey := ⟨fun _ _ _ _ => ⟨rfl, rfl⟩, fun _ _ => rfl, fun _ _ _ => rfl⟩

theorem SymbolTable.Distinct.of_view {t t' : SymbolTable} (h : t.Distinct) (hv : t'.view sortKey = t.view sortKey) : t'.Distinct := by
  intro k k' s s' hk hk' h1 h2
  have key : ∀ {k : Nat} {s : Symbol}, AMap.get? t'.symbols k = some s → ∃ u, AMap.get? t.symbols k = some u ∧ sortKey u = sortKey s := by
    intro k s hk
    have e := SymbolTable.view_get hv (.named k)
    have h1 : (AMap.get? t'.symbols k).map sortKey = (AMap.get? t.symbols k).map sortKey := e
    rw [hk] at h1
    obtain ⟨u, hu, e⟩ := Option.map_eq_some_iff.1 h1.symm
    exact ⟨u, hu, e⟩
  obtain ⟨u, hu, e⟩ := key hk
  obtain ⟨u', hu', e'⟩ := key hk'
  unfold sortKey at e e'
  simp only [Prod.mk.injEq] at e e'
  exact h k k' u u' hu hu' (by rw [e.1, e'.1, h1]) (by rw [e.2, e'.2, h2])

/-! ### The tables of such links -/

theorem mem_symbolNames {n : Name} : n ∈ symbolNames ops ↔ n ∈ symNames ops ∧ n ≠ [] := by
  unfold symbolNames
  rw [List.mem_filter]
  have : ops.filterMap mentioned = symNames ops := by
    induction ops with
    | nil => rfl
    | cons o ops ih =>
      cases o <;> simp only [List.filterMap_cons, mentioned, symNames, ih]
  rw [this]
  cases n <;> simp

theorem gnuHash_inj {n m : Name} (h : elfGnuHash n = elfGnuHash m) : Spec.gnuHash n = Spec.gnuHash m := by
  rw [← C02_gnu_hash_is_polynomial, ← C02_gnu_hash_is_polynomial, h]

/-- the entries of `.symtab` are told apart by their hashes -/
theorem Hist.distinct (h : Hist opts ops w) (hl : w.symstr.totalLen < 2 ^ 32) (hd : DistinctHashes ops) : w.symtab.Distinct := by
  obtain ⟨ns, nd, T⟩ := h.tableFacts
  have h0 : ([] : Name) ∈ ns := (T.symNames []).2 (.inl rfl)
  -- the entry of the empty name
  have hnull : ∀ s, w.symtab.get (.named (u32 (nameOff ns []))) = some s → s.gnuHash = 0 ∨ s.gnuHash = elfGnuHash [] := by
    intro s hs
    have hz : u32 (nameOff ns []) = 0 := by
      rw [u32_nameOff T.symstr hl h0]
      have hh := T.symstr.head
      cases ns with
      | nil => cases hh
      | cons a l => cases hh; simp [nameOff]; rfl
    rw [hz] at hs
    have hs' : (w.symtab.mapSyms SymbolTable.undyn).get (.named 0) = some (SymbolTable.undyn s) := by
      rw [SymbolTable.get_mapSyms, hs]; rfl
    have := merged_forall (P := fun s => s.gnuHash = 0 ∨ s.gnuHash = elfGnuHash []) T.inv.sym (fun _ => .inl rfl) ?_ ?_ hs'
    · exact this
    · intro a ha hm
      obtain ⟨e, sec, n, path, r, hop, rfl⟩ := mem_symAdds ha
      have hn : n ∈ ns := (T.symNames n).2 (.inr (mem_symNames hop))
      have : n = [] := u32_nameOff_inj T.symstr hl hn h0 (hm.2.trans hz.symm)
      exact .inr (by rw [this]; rfl)
    · intro a _ _ ha old s ho hr
      have : s.gnuHash = old.gnuHash := by
        unfold SymbolTable.resolve at hr
        split at hr
        · cases hr
        · split at hr
          · cases hr; rfl
          · split at hr <;> cases hr <;> rfl
      rw [this]; exact ho
  intro k k' s s' hk hk' _ hg
  obtain ⟨n, hn, rfl, _, hh⟩ := T.named k s hk
  obtain ⟨n', hn', rfl, _, hh'⟩ := T.named k' s' hk'
  by_cases c : n = [] <;> by_cases c' : n' = []
  · rw [c, c']
  · exfalso
    subst c
    have hm := mem_symbolNames.2 ⟨((T.symNames n').1 hn').resolve_left c', c'⟩
    rw [(hh' c').2] at hg
    have := hd.2 n' hm
    rw [← C02_gnu_hash_is_polynomial, ← C02_gnu_hash_is_polynomial, ← hg] at this
    rcases hnull s hk with e | e <;> rw [e] at this
    · exact this.1 rfl
    · exact this.2 rfl
  · exfalso
    subst c'
    have hm := mem_symbolNames.2 ⟨((T.symNames n).1 hn).resolve_left c, c⟩
    rw [(hh c).2] at hg
    have := hd.2 n hm
    rw [← C02_gnu_hash_is_polynomial, ← C02_gnu_hash_is_polynomial, hg] at this
    rcases hnull s' hk' with e | e <;> rw [e] at this
    · exact this.1 rfl
    · exact this.2 rfl
  · have hm := mem_symbolNames.2 ⟨((T.symNames n).1 hn).resolve_left c, c⟩
    have hm' := mem_symbolNames.2 ⟨((T.symNames n').1 hn').resolve_left c', c'⟩
    rw [(hh c).2, (hh' c').2] at hg
    rw [hd.1 n hm n' hm' (gnuHash_inj hg)]

/-! ### The same bytes -/

/-- both orders sort the tables alike -/
structure SortsAlike (sched sched' : Sched) (a : Writer) : Prop where
  sym : a.symtab.sorted sched.symIter = a.symtab.sorted sched'.symIter
  dyn : a.dynsym.sorted sched.dynIter = a.dynsym.sorted sched'.dynIter

theorem SortsAlike.expand {a : Writer} (h : SortsAlike sched sched' a) (s : Section) : Writer.expand sched a s = Writer.expand sched' a s := by
  unfold Writer.expand SymbolTable.chunk
  rw [h.sym, h.dyn]

theorem SortsAlike.finalizeSec {a : Writer} (h : SortsAlike sched sched' a) (s : Section) : Writer.finalizeSec sched a s = Writer.finalizeSec sched' a s := by
  unfold Writer.finalizeSec SymbolTable.chunk
  rw [h.sym, h.dyn]

theorem SortsAlike.writeSections {a : Writer} (h : SortsAlike sched sched' a) : ∀ (l : List Section) (o : Nat),
    Writer.writeSections sched a o l = Writer.writeSections sched' a o l := by
  intro l
  induction l with
  | nil => intro o; rfl
  | cons s l ih => intro o; simp only [Writer.writeSections, h.finalizeSec, ih]

theorem perm_small {α : Type} {l l' : List α} (h : l.length ≤ 1) (hp : l'.Perm l) : l' = l := by
  match l, h with
  | [], _ => exact hp.eq_nil
  | [a], _ => exact List.perm_singleton.1 hp

/-- the symbols of libraries are not there -/
theorem NoLibraries.dynsym (h : Hist opts ops w) (hd : NoLibraries ops) : (AMap.keys w.dynsym.symbols).length ≤ 1 := by
  obtain ⟨ns, nd, T⟩ := h.tableFacts
  have hz : ∀ k ∈ AMap.keys w.dynsym.symbols, k = 0 := by
    intro k hk
    obtain ⟨s, hs⟩ := AMap.exists_get? hk
    rcases T.dynMention k s hs with e | ⟨e, n, path, hop, _⟩
    · exact e
    · exact absurd hop (hd _ _ _ _)
  have hn := T.dynNodup
  revert hz hn
  cases AMap.keys w.dynsym.symbols with
  | nil => intros; simp
  | cons a l => cases l with
    | nil => intros; simp
    | cons b l =>
      intro hz hn
      have h1 := hz a (by simp)
      have h2 := hz b (by simp)
      subst h1 h2
      simp at hn

theorem foldM'_same {σ α : Type} {f : σ → α → M σ} {s : σ} : ∀ {l : List α}, (∀ a ∈ l, f s a = .ok s) → foldM' f s l = .ok s := by
  intro l
  induction l with
  | nil => intro _; rfl
  | cons a l ih => intro h; rw [foldM'_cons, h a (by simp)]; exact ih fun b hb => h b (List.mem_cons_of_mem _ hb)

/-- **the same calculation** -/
theorem stages_equal (hv : sched.Valid) (hv' : sched'.Valid) (h : Hist opts ops w) (hs : SameSort sched sched') (hd : NoLibraries ops)
    (ht : w.symtab.Distinct) (st : Stages sched w) (st' : Stages sched' w) : st.final = st'.final := by
  obtain ⟨ns, nd, T⟩ := h.tableFacts
  have hsmall := NoLibraries.dynsym h hd
  -- no symbol is imported
  have hnone : ∀ r s, w.symtab.get r = some s → s.dynamic = none := by
    intro r s hr
    cases hc : s.dynamic with
    | none => rfl
    | some d =>
      obtain ⟨n, _, _, e, path, hop⟩ := T.inv.link r s d hr hc
      exact absurd hop (hd _ _ _ _)
  have hdynS : ∀ {t : SymbolTable}, t.symbols = w.dynsym.symbols → t.sorted sched.dynIter = t.sorted sched'.dynIter := by
    intro t e
    unfold SymbolTable.sorted
    rw [e, perm_small hsmall (hv.dynIter _), perm_small hsmall (hv'.dynIter _)]
  have hscan := scanned_same st.toEarly st'.toEarly
  have htab : st.scanned.symtab.view sortKey = w.symtab.view sortKey := scan_view sortKey_blind.scan st.hscan
  have hsymS : st.scanned.symtab.sorted sched.symIter = st.scanned.symtab.sorted sched'.symIter := (ht.of_view htab).sorted hv.symIter hv'.symIter
  obtain ⟨q1, q2, q3, _, _, q6, q7, q8, _⟩ := st.filled_tables
  have hscand : st.scanned.dynsym = w.dynsym := by rw [(scan_sections st.hscan).2]
  -- the early stages
  have a1 : SortsAlike sched sched' (resizeGotPlt (resizeGot st.scanned)) := ⟨hsymS, hdynS (by
    show st.scanned.dynsym.symbols = _; rw [hscand])⟩
  have e1 : expandDynsym sched (resizeGotPlt (resizeGot st.scanned)) = expandDynsym sched' (resizeGotPlt (resizeGot st'.scanned)) := by
    rw [← hscan]
    unfold expandDynsym
    congr 1
    funext s
    exact a1.expand s
  have e2 : st.filled = st'.filled := by
    have h1 := st.hfill
    have h2 := st'.hfill
    rw [← e1] at h2
    simp only [fillHashes] at h1 h2
    have hd2 : (expandDynsym sched (resizeGotPlt (resizeGot st.scanned))).dynsym.sorted sched.dynIter =
        (expandDynsym sched (resizeGotPlt (resizeGot st.scanned))).dynsym.sorted sched'.dynIter := hdynS (by
      show st.scanned.dynsym.symbols = _; rw [hscand])
    rw [← hd2] at h2
    exact Except.ok.inj (h1.symm.trans h2)
  have a3 : SortsAlike sched sched' st.filled := ⟨by rw [q1]; exact hsymS, hdynS (by rw [q2])⟩
  have e3 : st.filled.expandRest sched = st'.filled.expandRest sched' := by
    rw [← e2]
    unfold expandRest
    congr 1
    apply List.map_congr_left
    intro s _
    rw [a3.expand]
  have e4 : st.dynrel = st'.dynrel := by
    have h1 := st.hdynrel
    have h2 := st'.hdynrel
    rw [← e3] at h2
    have key : ∀ (ix : List (Nat × Nat)) (z : DynState) (ks : List Nat), z.symtab = st.scanned.symtab → (∀ k ∈ ks, k ∈ AMap.keys st.scanned.symtab.symbols) →
        foldM' (dynRelStep ix) z ks = .ok z := by
      intro ix z ks hz hks
      refine foldM'_same fun k hk => ?_
      obtain ⟨s, hs⟩ := AMap.exists_get? (hks k hk)
      have hdn : s.dynamic = none := by
        have hvw := SymbolTable.view_get (scan_view unscan_blind st.hscan) (.named k)
        have h1 : (AMap.get? st.scanned.symtab.symbols k).map unscan = (w.symtab.get (.named k)).map unscan := hvw
        rw [hs] at h1
        obtain ⟨u, hu, eu⟩ := Option.map_eq_some_iff.1 h1.symm
        have : u.dynamic = s.dynamic := (congrArg Symbol.dynamic eu :)
        rw [← this]; exact hnone _ u hu
      unfold dynRelStep
      rw [hz, hs]
      simp only [unwrap, ok_bind, hdn]
    have f1 : (st.filled.expandRest sched).symtab = st.scanned.symtab := q1
    simp only [genDynRels] at h1 h2
    rw [key _ _ _ f1 (fun k hk => by rw [← f1]; exact (hv.symIter _).mem_iff.1 hk)] at h1
    rw [key _ _ _ f1 (fun k hk => by rw [← f1]; exact (hv'.symIter _).mem_iff.1 hk)] at h2
    exact Except.ok.inj (h1.symm.trans h2)
  have e5 : st.dynamic = st'.dynamic := by
    have h1 := st.hdynamic
    rw [e4] at h1
    exact Except.ok.inj (h1.symm.trans st'.hdynamic)
  have e6 : st.sorted = st'.sorted := by
    have h1 := st.hsort
    have h2 := st'.hsort
    rw [← e5] at h2
    have ho : ∀ l, sched.secOrder l = sched'.secOrder l := by
      obtain ⟨π, p1, p2⟩ := hs
      intro l; rw [p1, p2]
    have ho : sched.secOrder = sched'.secOrder := funext ho
    unfold sortSecs at h1 h2
    rw [← ho] at h2
    exact Except.ok.inj (h1.symm.trans h2)
  have e7 : st.entries = st'.entries := by
    have h1 := st.hentries
    rw [e6] at h1
    exact Except.ok.inj (h1.symm.trans st'.hentries)
  -- nothing is called through the PLT
  obtain ⟨ks, gs, hI, _⟩ := st.scan h
  have hks : ks = [] := by
    cases ks with
    | nil => rfl
    | cons r ks =>
      obtain ⟨_, _, _, s, hs, hd⟩ := (hI.calls r).1 (by simp)
      rw [hnone _ _ hs] at hd
      cases hd
  have hgp : st.scanned.gotPlt = [] := by
    have := hI.gotPlt
    rw [hks] at this
    exact this
  have e8 : st.patched = st'.patched := by
    have h1 := st.hpatch
    have h2 := st'.hpatch
    rw [← e7] at h2
    have hg : st.entries.gotPlt = [] := by
      have hp : st.patched.gotPlt = st.entries.gotPlt := by rw [(patchPlt_post st.hpatch).2]
      rw [← hgp, ← hp, st.patched_tables.2.2.1]
      exact (st.linkRels hv h).slots
    unfold patchPlt at h1 h2
    rw [hg] at h1 h2
    have n1 : sched.gotPltIter (AMap.keys ([] : List (SymbolRef × Nat))) = [] := (hv.gotPltIter _).eq_nil
    have n2 : sched'.gotPltIter (AMap.keys ([] : List (SymbolRef × Nat))) = [] := (hv'.gotPltIter _).eq_nil
    rw [n1] at h1
    rw [n2] at h2
    exact Except.ok.inj (h1.symm.trans h2)
  have e9 : st.special = st'.special := by
    have h1 := st.hspecial
    rw [e8] at h1
    exact Except.ok.inj (h1.symm.trans st'.hspecial)
  have e10 : st.relocated = st'.relocated := by
    have h1 := st.hreloc
    rw [e9] at h1
    exact Except.ok.inj (h1.symm.trans st'.hreloc)
  have e11 : st.tables = st'.tables := by
    have h1 := st.htables
    rw [e10] at h1
    exact Except.ok.inj (h1.symm.trans st'.htables)
  have h1 := st.hfinal
  rw [e11] at h1
  exact Except.ok.inj (h1.symm.trans st'.hfinal)

/-- **the same file** -/
theorem run_equal {opts' : Options} {ops' : List Op} {w' v' : Writer} {f g : Bytes} {secs tecs : List Section} (h : Run opts ops sched w w' f secs) (h' : Run opts' ops' sched' w v' g tecs)
    (hs : SameSort sched sched') (hd : NoLibraries ops) (ht : w.symtab.Distinct) : f = g := by
  obtain ⟨st, rfl⟩ := h.stages
  obtain ⟨st', rfl⟩ := h'.stages
  have e := stages_equal h.valid h'.valid h.hist hs hd ht st st'
  obtain ⟨v1, v2⟩ := st.final_view sortKey_blind
  have hsmall : (AMap.keys st.final.dynsym.symbols).length ≤ 1 := by
    rw [SymbolTable.view_keys v2]; exact NoLibraries.dynsym h.hist hd
  have a : SortsAlike sched sched' st.final := by
    refine ⟨(ht.of_view v1).sorted h.valid.symIter h'.valid.symIter, ?_⟩
    unfold SymbolTable.sorted
    rw [perm_small hsmall (h.valid.dynIter _), perm_small hsmall (h'.valid.dynIter _)]
  have w1 := h.write
  have w2 := h'.write
  rw [← e] at w2
  unfold writeToDisk at w1 w2
  simp only [← a.writeSections] at w2
  exact congrArg Prod.fst (Except.ok.inj (w1.symm.trans w2))

end Dld
