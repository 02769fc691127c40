import Verif.Spec.Progress
import Verif.Lemmas.Trip
import Verif.Lemmas.Imports
import Verif.Lemmas.HashTables
/-! # The stages of `compute_sections` succeed -/
namespace Dld
open Writer Spec StringTable

variable {opts : Options} {ops : List Op} {sched : Sched} {w w' : Writer}

/-! ### Loops that succeed -/

theorem mapAccumM_progress {σ α β : Type} {f : σ → α → M (σ × β)} (P : σ → Prop) {l : List α} {s : σ} (h0 : P s)
    (hf : ∀ s a, a ∈ l → P s → ∃ s' b, f s a = .ok (s', b) ∧ P s') : ∃ s' bs, mapAccumM f s l = .ok (s', bs) ∧ P s' := by
  induction l generalizing s with
  | nil => exact ⟨s, [], rfl, h0⟩
  | cons a l ih =>
    obtain ⟨s1, b, h1, h2⟩ := hf s a (by simp) h0
    obtain ⟨s2, bs, h3, h4⟩ := ih h2 fun s a ha => hf s a (by simp [ha])
    exact ⟨s2, b :: bs, (mapAccumM_cons ..).2 ⟨s1, b, s2, bs, h1, h3, rfl⟩, h4⟩

theorem foldM'_progress {σ α : Type} {f : σ → α → M σ} (P : σ → Prop) {l : List α} {s : σ} (h0 : P s)
    (hf : ∀ s a, a ∈ l → P s → ∃ s', f s a = .ok s' ∧ P s') : ∃ s', foldM' f s l = .ok s' ∧ P s' := by
  induction l generalizing s with
  | nil => exact ⟨s, rfl, h0⟩
  | cons a l ih =>
    obtain ⟨s1, h1, h2⟩ := hf s a (by simp) h0
    obtain ⟨s2, h3, h4⟩ := ih h2 fun s a ha => hf s a (by simp [ha])
    exact ⟨s2, by rw [foldM'_cons, h1]; exact h3, h4⟩

/-! ### The relocation scan -/

theorem scanOne_progress {st : ScanState} {e : Rela × SymbolRef} (h : (st.symtab.get e.2).isSome) : ∃ st' e', scanOne st e = .ok (st', e') := by
  obtain ⟨rel, r⟩ := e
  obtain ⟨s, hs⟩ := Option.isSome_iff_exists.1 h
  have hu : unwrap (st.symtab.get r) = .ok s := unwrap_ok.2 hs
  unfold scanOne
  simp only [hu, ok_bind]
  split
  · split <;> exact ⟨_, _, rfl⟩
  · split
    · split <;> exact ⟨_, _, rfl⟩
    · exact ⟨_, _, rfl⟩

theorem scan_progress (h : ∀ e ∈ relocsOf w, (w.symtab.get e.2).isSome) : ∃ w', w.scanRelocations = .ok w' := by
  have isSome_of : ∀ (st : ScanState) (r : SymbolRef), st.symtab.view unscan = w.symtab.view unscan → (w.symtab.get r).isSome → (st.symtab.get r).isSome := by
    intro st r hv hr
    obtain ⟨s, hs⟩ := Option.isSome_iff_exists.1 hr
    obtain ⟨s', hs', _⟩ := SymbolTable.view_get_some hv.symm hs
    rw [hs']; rfl
  obtain ⟨st, secs, h1, _⟩ := mapAccumM_progress (f := scanSection) (l := w.sections)
    (s := { symtab := w.symtab, plt := w.plt, gotPlt := w.gotPlt, gotLen := w.gotLen })
    (fun st => st.symtab.view unscan = w.symtab.view unscan) rfl (by
      intro st s hs hP
      obtain ⟨st1, cs, h1, h2⟩ := mapAccumM_progress (f := scanChunk) (l := s.chunks) (s := st) (fun st => st.symtab.view unscan = w.symtab.view unscan) hP (by
        intro st c hc hP
        obtain ⟨st1, rs, h1, h2⟩ := mapAccumM_progress (f := scanOne) (l := c.relocations) (s := st) (fun st => st.symtab.view unscan = w.symtab.view unscan) hP (by
          intro st e he hP
          obtain ⟨st', e', h1⟩ := scanOne_progress (st := st) (e := e) (isSome_of st e.2 hP (h e (List.mem_flatMap.2 ⟨s, hs, List.mem_flatMap.2 ⟨c, hc, he⟩⟩)))
          exact ⟨st', e', h1, (Writer.scanOne_view unscan_blind h1).trans hP⟩)
        exact ⟨st1, { c with relocations := rs }, by unfold scanChunk; rw [h1]; rfl, h2⟩)
      exact ⟨st1, { s with chunks := cs }, by unfold scanSection; rw [h1]; rfl, h2⟩)
  exact ⟨_, by unfold scanRelocations; rw [h1]; rfl⟩

/-! ### The hash tables -/

theorem gnu_progress {l : List UInt32} (h : l ≠ []) : ∃ t, GnuHashTable.addSymbols l = some t := by
  cases l with
  | nil => exact absurd rfl h
  | cons a l => exact ⟨_, rfl⟩

theorem fill_progress (h1 : w.dynsym.symbols.length < 2 ^ 32) (h2 : 0 < w.dynsym.symbols.length) (hv : sched.Valid) :
    ∃ w', w.fillHashes sched = .ok w' := by
  have hl := SymbolTable.sorted_length hv.dynIter w.dynsym
  obtain ⟨B, h3, _⟩ := HashTable.addSymbols_spec ((w.dynsym.sorted sched.dynIter).map (·.hash)) (by rw [List.length_map]; omega)
  obtain ⟨t, h4⟩ := gnu_progress (l := (w.dynsym.sorted sched.dynIter).map (·.gnuHash)) (by
    intro h
    have := congrArg List.length h
    simp only [List.length_map, List.length_nil] at this; omega)
  refine ⟨{ w with hashTab := HashTable.mk' B.1 B.2, gnuTab := t }, ?_⟩
  unfold fillHashes
  simp only [bind_ok, unwrap_ok]
  exact ⟨_, h3, _, h4, rfl⟩

/-! ### The dynamic relocations -/

theorem dynSymIndices_of_mem {l : List Symbol} {s : Symbol} (h : s ∈ l) : (AMap.get? (dynSymIndices l) s.sym.st_name).isSome := by
  have key : ∀ (l : List (Symbol × Nat)) (m : List (Nat × Nat)), ((AMap.get? m s.sym.st_name).isSome ∨ ∃ e ∈ l, e.1 = s) →
      (AMap.get? (l.foldl (fun m e => AMap.insert m e.1.sym.st_name e.2) m) s.sym.st_name).isSome := by
    intro l
    induction l with
    | nil => intro m h; rcases h with h | ⟨_, h, _⟩; exact h; cases h
    | cons e l ih =>
      intro m h
      rw [List.foldl_cons]
      apply ih
      rw [AMap.get?_insert]
      rcases h with h | ⟨e', h, he⟩
      · left; split <;> simp_all
      · rcases List.mem_cons.1 h with h | h
        · subst h; left; rw [he]; simp
        · right; exact ⟨e', h, he⟩
  unfold dynSymIndices
  apply key
  right
  obtain ⟨i, hi, he⟩ := List.getElem_of_mem h
  exact ⟨(s, i), List.mem_zipIdx_iff_getElem?.2 (by rw [List.getElem?_eq_getElem hi, he]), rfl⟩

theorem SymbolTable.mem_sorted_of_get {t : SymbolTable} {order : List Nat → List Nat} (ho : ∀ l, (order l).Perm l) {k : Nat} {s : Symbol}
    (h : t.get (.named k) = some s) : s ∈ t.sorted order := by
  unfold SymbolTable.sorted
  rw [(stableSort_perm _ _).mem_iff, List.mem_filterMap]
  refine ⟨k, ?_, h⟩
  rw [(ho _).mem_iff]
  have h : AMap.get? t.symbols k = some s := h
  rw [← AMap.get?_isSome]
  rw [h]; rfl

theorem genDynRels_progress (t0 d0 : SymbolTable) (h1 : w.symtab.view unrel = t0.view unrel) (h2 : w.dynsym = d0) (hv : sched.Valid)
    (hd : ∀ k s d, AMap.get? t0.symbols k = some s → s.dynamic = some d → ∃ n x, d = .named n ∧ d0.get d = some x ∧ x.sym.st_name = n) :
    ∃ w', w.genDynRels sched = .ok w' := by
  subst h2
  obtain ⟨st, h3, _⟩ := foldM'_progress (f := dynRelStep (dynSymIndices (w.dynsym.sorted sched.dynIter))) (l := sched.symIter (AMap.keys w.symtab.symbols))
    (s := { symtab := w.symtab, dynsym := w.dynsym, copyRel := w.copyRel, dynRels := w.dynRels, pltRels := w.pltRels })
    (fun st => st.symtab.view unrel = t0.view unrel ∧ st.dynsym.view unplace = w.dynsym.view unplace) ⟨h1, rfl⟩ (by
      intro st k hk ⟨v1, v2⟩
      have hstep : ∃ st', dynRelStep (dynSymIndices (w.dynsym.sorted sched.dynIter)) st k = .ok st' := by
        rw [(hv.symIter _).mem_iff, SymbolTable.view_keys h1, ← SymbolTable.view_keys v1, ← AMap.get?_isSome] at hk
        obtain ⟨s, hs⟩ := Option.isSome_iff_exists.1 hk
        unfold dynRelStep
        rw [hs]
        simp only [unwrap, ok_bind]
        cases hsd : s.dynamic with
        | none => exact ⟨_, rfl⟩
        | some d =>
          obtain ⟨s0, hs0, e0⟩ := SymbolTable.view_get_some v1 (r := .named k) hs
          have e0 : s.dynamic = s0.dynamic := congrArg (·.dynamic) e0
          obtain ⟨n, x, rfl, hx, hxn⟩ := hd k s0 d hs0 (by rw [← e0]; exact hsd)
          have hi := dynSymIndices_of_mem (SymbolTable.mem_sorted_of_get hv.dynIter hx)
          rw [hxn] at hi
          obtain ⟨i, hi⟩ := Option.isSome_iff_exists.1 hi
          obtain ⟨x', hx', _⟩ := SymbolTable.view_get_some v2.symm hx
          have hi : AMap.get? (dynSymIndices (w.dynsym.sorted sched.dynIter)) (SymbolRef.named n).st_name = some i := hi
          have hg : ∀ (z : DynState), z.dynsym = st.dynsym → unwrap (z.dynsym.get (.named n)) = .ok x' := fun z hz => by rw [hz, unwrap_ok]; exact hx'
          simp only [hi, ok_bind]
          cases hgot : s.inGot <;> simp only [hx', ok_bind] <;> cases hgp : s.inGotPlt <;> exact ⟨_, rfl⟩
      obtain ⟨st', hst⟩ := hstep
      obtain ⟨a, b⟩ := Writer.dynRelStep_view (F := unrel) (G := unplace) (fun _ _ => rfl) unplace_blind hst
      exact ⟨st', hst, a.trans v1, b.trans v2⟩)
  unfold genDynRels
  simp only [h3, ok_bind]
  exact ⟨_, rfl⟩

/-! ### Up to the entries of `.dynamic` -/

theorem sizeDynamic_progress (h : ∀ s ∈ w.sections, (w.shstr.name s.sh.sh_name).isSome) : ∃ w', w.sizeDynamic = .ok w' := by
  obtain ⟨n, h1, _⟩ := foldM'_progress (f := fun n s => do let name ← w.secName s; .ok (n + Dld.dynEntries name s.sh)) (l := w.sections) (s := 0)
    (fun _ => True) trivial (by
      intro n s hs _
      obtain ⟨m, hm⟩ := Option.isSome_iff_exists.1 (h s hs)
      exact ⟨n + Dld.dynEntries m s.sh, by simp only [secName, hm, unwrap, ok_bind], trivial⟩)
  unfold sizeDynamic
  rw [h1]
  exact ⟨_, rfl⟩

theorem addDynEntries_progress (h : ∀ s ∈ w.sections, (w.shstr.name s.sh.sh_name).isSome) : ∃ w', w.addDynEntries = .ok w' := by
  obtain ⟨n, h1, _⟩ := foldM'_progress (f := fun es s => do let name ← w.secName s; .ok (es ++ dynEntriesOf name s.sh)) (l := w.sections) (s := w.dynEntries)
    (fun _ => True) trivial (by
      intro n s hs _
      obtain ⟨m, hm⟩ := Option.isSome_iff_exists.1 (h s hs)
      exact ⟨n ++ dynEntriesOf m s.sh, by simp only [secName, hm, unwrap, ok_bind], trivial⟩)
  unfold addDynEntries
  rw [h1]
  exact ⟨_, rfl⟩

theorem sortSecs_progress (h : w.sections ≠ []) : ∃ w', w.sortSecs sched = .ok w' := by
  unfold sortSecs sortSections
  cases hw : w.sections with
  | nil => exact absurd hw h
  | cons a l => exact ⟨_, rfl⟩

theorem expand_name (v : Writer) (s : Section) : (expand sched v s).sh.sh_name = s.sh.sh_name := by
  unfold expand; cases s.kind <;> rfl

theorem isSome_of_names {l l' : List Section} {t : StringTable} (h : ∀ n ∈ l'.map (·.sh.sh_name), n ∈ l.map (·.sh.sh_name))
    (hl : ∀ s ∈ l, (t.name s.sh.sh_name).isSome) : ∀ s ∈ l', (t.name s.sh.sh_name).isSome := by
  intro s hs
  obtain ⟨s', hs', e⟩ := List.mem_map.1 (h _ (List.mem_map_of_mem hs))
  have e : s'.sh.sh_name = s.sh.sh_name := e
  rw [← e]; exact hl s' hs'

open SymbolTable in
theorem mergeAll_ne_none (e : Symbol) (l : List Add) : mergeAll (some e) l ≠ some none := by
  induction l generalizing e with
  | nil => simp [mergeAll]
  | cons a l ih =>
    rw [mergeAll]
    cases h : mergeOne (some e) a with
    | none => simp
    | some s =>
      cases s with
      | some s => exact ih s
      | none =>
        simp only [mergeOne] at h
        cases hr : resolve e (ofAdd a) <;> simp [hr] at h

/-- the stages up to the entries of `.dynamic` succeed -/
theorem Hist.early (h : Hist opts ops w) (hv : sched.Valid) (hr : RelocSyms ops) (hd : NamedDyns ops) (hn : NamesFit w)
    (hl : w.dynsym.symbols.length < 2 ^ 32) : Nonempty (Early sched w) := by
  obtain ⟨ns, nd, T⟩ := h.tableFacts
  obtain ⟨w0, pn, h0, hI⟩ := h.winv
  have hu := h.untouched
  -- the names of all sections are in the table
  have hnames : ∀ s ∈ w.sections, (w.shstr.name s.sh.sh_name).isSome := by
    intro s hs
    have := List.mem_map_of_mem (f := fun s : Section => w.shstr.name s.sh.sh_name) hs
    rw [hI.sec_names h0 hn] at this
    obtain ⟨m, _, e⟩ := List.mem_map.1 this
    rw [← e]; rfl
  obtain ⟨w1, h1⟩ := scan_progress (w := w) (by
    rintro ⟨rel, r⟩ he
    obtain ⟨sr, path, ho⟩ := (h.mem_relocsOf rel r).1 he
    obtain ⟨s, sec, n, p, ho'⟩ := hr _ _ _ _ ho
    exact (T.inv.sref _ _ _ _ _ ho').1)
  obtain ⟨b1, r1⟩ := scan_sections h1
  have n1 : w1.sections.map (·.sh.sh_name) = w.sections.map (·.sh.sh_name) := map_of_map b1 (fun b => b.2.2.2.2.1.sh_name) fun _ => rfl
  have hdl : 0 < w.dynsym.symbols.length := by
    have := SymbolTable.addAll_ok T.inv.dyn 0
    cases hw : w.dynsym.symbols with
    | nil =>
      rw [hw] at this
      exact absurd this (mergeAll_ne_none _ _)
    | cons a l => simp
  obtain ⟨w2, h2⟩ := fill_progress (w := expandDynsym sched (resizeGotPlt (resizeGot w1))) (sched := sched)
    (by show w1.dynsym.symbols.length < _; rw [r1]; exact hl) (by show 0 < w1.dynsym.symbols.length; rw [r1]; exact hdl) hv
  have r2 := fillHashes_rest h2
  obtain ⟨w3, h3⟩ := genDynRels_progress (w := w2.expandRest sched) (sched := sched) w1.symtab w.dynsym (by rw [r2]; rfl) (by rw [r2]; show w1.dynsym = _; rw [r1]) hv (by
    intro k s d hk hsd
    obtain ⟨s0, hs0, e⟩ := SymbolTable.view_get_some (scan_view unscan_blind h1) (r := .named k) hk
    have e : s.dynamic = s0.dynamic := congrArg (·.dynamic) e
    obtain ⟨n, _, _, e', path, ho⟩ := T.inv.link _ _ _ hs0 (by rw [← e]; exact hsd)
    obtain ⟨i1, i2⟩ := T.inv.dref _ _ _ _ ho
    have i2 := i2 (hd _ _ _ _ ho)
    obtain ⟨x, hx⟩ := Option.isSome_iff_exists.1 i1
    refine ⟨_, x, i2, hx, ?_⟩
    rw [i2] at hx
    obtain ⟨_, _, _, e, _⟩ := T.dynNamed _ _ hx
    exact e)
  have r3 := genDynRels_rest h3
  have s3 := genDynRels_sections h3
  have n3 : w3.sections.map (·.sh.sh_name) = w.sections.map (·.sh.sh_name) := by
    rw [← n1, s3, List.map_map, List.map_map]
    have : (w2.expandRest sched).sections.map (·.sh.sh_name) = w1.sections.map (·.sh.sh_name) := by
      unfold expandRest
      rw [r2]
      simp only [List.map_map, expandDynsym, resizeGotPlt, resizeGot, modSec]
      apply List.map_congr_left
      intro s _
      simp only [Function.comp]
      repeat' split
      all_goals simp [expand_name, growZero]
    rw [← this]
    apply List.map_congr_left
    intro s _
    simp only [Function.comp]
    repeat' split
    all_goals simp [setSize]
  have e3 : w3.shstr = w.shstr := by
    rw [r3]
    show w2.shstr = _
    rw [r2]
    show w1.shstr = _
    rw [r1]
  have hn3 : ∀ s ∈ w3.sections, (w3.shstr.name s.sh.sh_name).isSome := by
    rw [e3]; exact isSome_of_names (by rw [n3]; exact fun _ h => h) hnames
  obtain ⟨w4, h4⟩ := sizeDynamic_progress hn3
  obtain ⟨⟨sz, s4⟩, r4⟩ := sizeDynamic_sections h4
  have n4 : w4.sections.map (·.sh.sh_name) = w.sections.map (·.sh.sh_name) := by
    rw [← n3, s4, List.map_map]
    apply List.map_congr_left
    intro s _
    simp only [Function.comp]
    split <;> rfl
  obtain ⟨w5, h5⟩ := sortSecs_progress (w := w4) (sched := sched) (by
    intro hz
    have := congrArg List.length n4
    rw [hz] at this
    obtain ⟨null, rest, hw, _⟩ := h.secFacts.head
    rw [hw] at this; simp at this)
  obtain ⟨_, _, _, r5, _⟩ := sortSecs_ok h5
  obtain ⟨p1, p2⟩ := sortSecs_perm hv h5 (F := fun s => s.sh.sh_name) (fun _ _ => rfl)
  have n5 : (w5.sections.map (·.sh.sh_name)).Perm (w.sections.map (·.sh.sh_name)) := by
    rw [← n4, ← List.take_append_drop 1 w5.sections, ← List.take_append_drop 1 w4.sections, List.map_append, List.map_append, p1]
    exact p2.append_left _
  have hpl : w5.genProgramHeaders.shstr = w.shstr := by
    show w5.shstr = _
    rw [r5]; show w4.shstr = _; rw [r4]; exact e3
  have n6 : ∀ s ∈ w5.genProgramHeaders.sections, ∃ t ∈ w5.sections, t.sh.sh_name = s.sh.sh_name := by
    intro s hs
    rcases List.mem_append.1 hs with hs | hs
    · exact ⟨s, List.mem_of_mem_take hs, rfl⟩
    · obtain ⟨t, ht, hc⟩ := layoutLoop_core' hs
      exact ⟨t, List.mem_of_mem_drop ht, hc.name.symm⟩
  obtain ⟨w6, h6⟩ := addDynEntries_progress (w := w5.genProgramHeaders) (by
    rw [hpl]
    refine isSome_of_names (l := w.sections) ?_ hnames
    intro m hm
    obtain ⟨s, hs, rfl⟩ := List.mem_map.1 hm
    obtain ⟨t, ht, e⟩ := n6 s hs
    exact n5.mem_iff.1 (List.mem_map.2 ⟨t, ht, e⟩))
  exact ⟨⟨w1, w2, w3, w4, w5, w6, h1, h2, h3, h4, h5, h6⟩⟩

end Dld
