import Verif.Props.Values
/-! # Lemmas: the bounds of `.init_array` and `.fini_array` -/
namespace Dld
open Writer Spec StringTable

/-- a step that leaves something alone except at one place -/
theorem mapAccumM_single {σ α β δ γ : Type} {f : σ → α → M (σ × β)} {G : σ → δ} {F : α → γ} {F' : β → γ} {l : List α} : ∀ {s s' : σ} {bs : List β} {i : Nat} {a : α},
    mapAccumM f s l = .ok (s', bs) → l[i]? = some a →
    (∀ j c, l[j]? = some c → j ≠ i → ∀ t t' b, f t c = .ok (t', b) → G t' = G t ∧ F' b = F c) →
    (∃ t t' b, f t a = .ok (t', b) ∧ bs[i]? = some b ∧ G t = G s ∧ G s' = G t') ∧ ∀ j, j ≠ i → bs[j]?.map F' = l[j]?.map F := by
  induction l with
  | nil => intro s s' bs i a _ h; simp at h
  | cons x l ih =>
    intro s s' bs i a h hi ho
    rw [mapAccumM_cons] at h
    obtain ⟨s1, b, s2, bs1, h1, h2, h3⟩ := h
    cases h3
    cases i with
    | zero =>
      simp only [List.getElem?_cons_zero, Option.some.injEq] at hi
      subst hi
      have hrest : ∀ j c, l[j]? = some c → ∀ t t' b, f t c = .ok (t', b) → G t' = G t ∧ F' b = F c :=
        fun j c hj => ho (j + 1) c (by simpa using hj) (by omega)
      have key : ∀ (l : List α) (s s' : σ) (bs : List β), mapAccumM f s l = .ok (s', bs) →
          (∀ (j : Nat) c, l[j]? = some c → ∀ t t' b, f t c = .ok (t', b) → G t' = G t ∧ F' b = F c) → G s' = G s ∧ bs.map F' = l.map F := by
        intro l
        induction l with
        | nil => intro s s' bs h _; cases h; exact ⟨rfl, rfl⟩
        | cons y l ih2 =>
          intro s s' bs h hc
          rw [mapAccumM_cons] at h
          obtain ⟨s1, b, s2, bs1, h1, h2, h3⟩ := h
          cases h3
          obtain ⟨e1, e2⟩ := ih2 s1 _ _ h2 fun j c hj => hc (j + 1) c (by simpa using hj)
          obtain ⟨e3, e4⟩ := hc 0 y (by simp) _ _ _ h1
          exact ⟨e1.trans e3, by simp [e2, e4]⟩
      obtain ⟨e1, e2⟩ := key l s1 _ _ h2 hrest
      refine ⟨⟨s, s1, b, h1, by simp, rfl, e1⟩, fun j hj => ?_⟩
      obtain ⟨j, rfl⟩ : ∃ k, j = k + 1 := ⟨j - 1, by omega⟩
      have := congrArg (·[j]?) e2
      simpa using this
    | succ i =>
      obtain ⟨⟨t, t', b', h4, h5, h6, h7⟩, h8⟩ := ih h2 (by simpa using hi) fun j c hj hne => ho (j + 1) c (by simpa using hj) (by omega)
      obtain ⟨e1, e2⟩ := ho 0 x (by simp) (by omega) _ _ _ h1
      refine ⟨⟨t, t', b', h4, by simpa using h5, h6.trans e1, h7⟩, fun j hj => ?_⟩
      cases j with
      | zero => simp [e2]
      | succ j => simpa using h8 j (by omega)

theorem noted_add {r : SymbolRef} {c : Chunk} (h : noted r c = []) : noted r (c.addSymbol r) = [r] := by
  unfold noted at h ⊢
  have : r ∉ c.symbols := fun hm => by
    rw [List.filter_eq_nil_iff] at h
    exact h r hm (by simp)
  unfold Chunk.addSymbol
  rw [if_neg (by simpa using this)]
  simp [h]

namespace Writer

/-- the start symbol is noted in the first chunk -/
theorem boundSymbols_start {symstr : StringTable} {S E : Name} {t t' : SymbolTable} {s s' : Section} {e : Entry} (he : symstr.get S = some e)
    (hE : NotNamed symstr (.named (u32 e.offset)) E) (hz : ∀ c ∈ s.chunks, noted (.named (u32 e.offset)) c = [])
    (h : boundSymbols symstr S E t s = .ok (t', s')) :
    t'.get (.named (u32 e.offset)) = t.get (.named (u32 e.offset)) ∧
    ∃ c cs, s.chunks = c :: cs ∧ s'.chunks.map (noted (.named (u32 e.offset))) = [.named (u32 e.offset)] :: cs.map fun _ => [] := by
  unfold boundSymbols at h
  rw [he] at h
  simp only [] at h
  rw [bind_ok] at h
  obtain ⟨s1, h1, h2⟩ := h
  obtain ⟨hl, rfl⟩ := modifyChunk_ok h1
  obtain ⟨c, cs, hc⟩ : ∃ c cs, s.chunks = c :: cs := by
    cases hs : s.chunks with
    | nil => rw [hs] at hl; simp at hl
    | cons c cs => exact ⟨c, cs, rfl⟩
  have hm : (s.chunks.modify 0 (·.addSymbol (.named (u32 e.offset)))).map (noted (.named (u32 e.offset))) =
      [.named (u32 e.offset)] :: cs.map fun _ => [] := by
    rw [hc]
    simp only [List.modify_zero_cons, List.map_cons]
    rw [noted_add (hz c (by rw [hc]; simp))]
    congr 1
    exact List.map_congr_left fun d hd => hz d (by rw [hc]; simp [hd])
  cases hbe : symstr.get E with
  | none => rw [hbe] at h2; cases h2; exact ⟨rfl, c, cs, hc, hm⟩
  | some e' =>
    rw [hbe] at h2
    simp only [bind_ok] at h2
    obtain ⟨_, _, h2⟩ := h2
    by_cases hz : (s.chunks.modify 0 (·.addSymbol (.named (u32 e.offset)))).length = 0
    · simp only [if_pos hz] at h2; cases h2
    · simp only [if_neg hz] at h2
      rw [bind_ok] at h2
      obtain ⟨s2, h3, h4⟩ := h2
      cases h4
      obtain ⟨_, rfl⟩ := modifyChunk_ok h3
      have hne := hE e' hbe
      exact ⟨by rw [SymbolTable.get_modify, if_neg hne], c, cs, hc, (noted_modify hne _ _).trans hm⟩

/-- the end symbol is noted in the last chunk, with the size of the section -/
theorem boundSymbols_stop {symstr : StringTable} {S E : Name} {t t' : SymbolTable} {s s' : Section} {e : Entry} (he : symstr.get E = some e)
    (hS : NotNamed symstr (.named (u32 e.offset)) S) (hz : ∀ c ∈ s.chunks, noted (.named (u32 e.offset)) c = [])
    (h : boundSymbols symstr S E t s = .ok (t', s')) :
    t'.get (.named (u32 e.offset)) = (t.get (.named (u32 e.offset))).map (fun x => { x with sym := { x.sym with st_value := s.sizeOnDisk } }) ∧
    0 < s.chunks.length ∧ ∀ k, s'.chunks[k]?.map (noted (.named (u32 e.offset))) =
      s.chunks[k]?.map fun _ => if k + 1 = s.chunks.length then [SymbolRef.named (u32 e.offset)] else [] := by
  have tail : ∀ s1 : Section, s1.sh = s.sh → s1.chunks.map (noted (.named (u32 e.offset))) = s.chunks.map (noted (.named (u32 e.offset))) →
      (do
          let _ ← unwrap (t.get (.named (u32 e.offset)))
          let t := t.modify (.named (u32 e.offset)) fun x => { x with sym := { x.sym with st_value := s1.sizeOnDisk } }
          let s ← if s1.chunks.length = 0 then .error .panic
            else s1.modifyChunk (s1.chunks.length - 1) (·.addSymbol (.named (u32 e.offset)))
          .ok (t, s)) = (.ok (t', s') : M (SymbolTable × Section)) →
      t'.get (.named (u32 e.offset)) = (t.get (.named (u32 e.offset))).map (fun x => { x with sym := { x.sym with st_value := s.sizeOnDisk } }) ∧
      0 < s.chunks.length ∧ ∀ k, s'.chunks[k]?.map (noted (.named (u32 e.offset))) =
        s.chunks[k]?.map fun _ => if k + 1 = s.chunks.length then [SymbolRef.named (u32 e.offset)] else [] := by
    intro s1 e1 e2 h2
    simp only [bind_ok] at h2
    obtain ⟨_, _, h2⟩ := h2
    have hlen : s1.chunks.length = s.chunks.length := by simpa using congrArg List.length e2
    by_cases hz' : s1.chunks.length = 0
    · simp only [if_pos hz'] at h2; cases h2
    · simp only [if_neg hz'] at h2
      rw [bind_ok] at h2
      obtain ⟨s2, h3, h4⟩ := h2
      cases h4
      obtain ⟨_, rfl⟩ := modifyChunk_ok h3
      refine ⟨?_, by omega, fun k => ?_⟩
      · rw [SymbolTable.get_modify, if_pos rfl]
        unfold Section.sizeOnDisk
        rw [e1]
      · have hk := congrArg (·[k]?) e2
        simp only [List.getElem?_map] at hk
        simp only [List.getElem?_modify]
        cases hs : s.chunks[k]? with
        | none =>
          have : s1.chunks[k]? = none := by rw [List.getElem?_eq_none_iff] at hs ⊢; omega
          rw [this]; rfl
        | some c =>
          rw [hs, Option.map_some, hz c (List.mem_of_getElem? hs)] at hk
          obtain ⟨c1, hc1, hc2⟩ := Option.map_eq_some_iff.1 hk
          rw [hc1]
          have hkl : k < s.chunks.length := (List.getElem?_eq_some_iff.1 hs).1
          by_cases hlast : k + 1 = s.chunks.length
          · have : s1.chunks.length - 1 = k := by omega
            simp [hlast, this, noted_add hc2]
          · have : s1.chunks.length - 1 ≠ k := by omega
            simp [hlast, this, hc2]
  unfold boundSymbols at h
  rw [he] at h
  cases hae : symstr.get S with
  | none =>
    rw [hae] at h
    exact tail s rfl rfl h
  | some e' =>
    rw [hae] at h
    simp only [] at h
    rw [bind_ok] at h
    obtain ⟨s1, h1, h2⟩ := h
    obtain ⟨_, rfl⟩ := modifyChunk_ok h1
    exact tail { s with chunks := s.chunks.modify 0 (·.addSymbol (.named (u32 e'.offset))) } rfl (noted_modify (hS e' hae) _ _) h2

/-- what `handle_special_symbols` does for one of the bounds of one array -/
theorem special_bound {w w' : Writer} (h : w.handleSpecialSymbols = .ok w') {r : SymbolRef} {m S E : Name} (hm : (m, S, E) ∈ arrayBounds)
    (hr : ∀ m' S' E', (m', S', E') ∈ arrayBounds → m' ≠ m → NotNamed w.symstr r S' ∧ NotNamed w.symstr r E')
    (hgot : NotNamed w.symstr r b!"_GLOBAL_OFFSET_TABLE_") {i : Nat} {q : Section} (hi : w.sections[i]? = some q)
    (hname : ∀ m', w.shstr.shName m' = some q.sh.sh_name ↔ m' = m)
    (huniq : ∀ j s, w.sections[j]? = some s → s.sh.sh_name = q.sh.sh_name → j = i)
    (hskip : ∀ a, w.sec P.symstr = .ok a ∨ w.sec P.shstr = .ok a → a.sh.sh_name ≠ q.sh.sh_name) :
    (∃ t t' u, boundSymbols w.symstr S E t q = .ok (t', u) ∧ w'.sections[i]? = some u ∧ t.get r = w.symtab.get r ∧ w'.symtab.get r = t'.get r) ∧
    ∀ j, j ≠ i → w'.sections[j]?.map (fun s => s.chunks.map (noted r)) = w.sections[j]?.map (fun s => s.chunks.map (noted r)) := by
  simp only [handleSpecialSymbols, bind_ok, Prod.exists] at h
  obtain ⟨g, hg, a, ha, b, hb, t, secs, h1, c, _, h2⟩ := h
  cases h2
  have hq : ∀ t, specialStep w.shstr w.symstr [a.sh.sh_name, b.sh.sh_name] t q = boundSymbols w.symstr S E t q := by
    intro t
    unfold specialStep
    rw [if_neg (by
      simp only [List.mem_cons, List.not_mem_nil, or_false, not_or]
      exact ⟨fun e => hskip a (.inl ha) e.symm, fun e => hskip b (.inr hb) e.symm⟩)]
    simp only [arrayBounds, List.mem_cons, Prod.mk.injEq, List.not_mem_nil, or_false] at hm
    rcases hm with ⟨rfl, rfl, rfl⟩ | ⟨rfl, rfl, rfl⟩
    · rw [if_pos ((hname _).2 rfl)]
    · rw [if_neg (fun e => absurd ((hname _).1 e) (by decide)), if_pos ((hname _).2 rfl)]
  have ho : ∀ j c, w.sections[j]? = some c → j ≠ i → ∀ t t' b', specialStep w.shstr w.symstr [a.sh.sh_name, b.sh.sh_name] t c = .ok (t', b') →
      t'.get r = t.get r ∧ b'.chunks.map (noted r) = c.chunks.map (noted r) := by
    intro j c hj hne t t' b' h
    have hno : w.shstr.shName m ≠ some c.sh.sh_name := by
      intro e
      rw [(hname m).2 rfl] at e
      exact hne (huniq j c hj (Option.some.inj e).symm)
    have other : ∀ m' S' E', (m', S', E') ∈ arrayBounds → w.shstr.shName m' = some c.sh.sh_name → NotNamed w.symstr r S' ∧ NotNamed w.symstr r E' :=
      fun m' S' E' hm' e => hr m' S' E' hm' fun e' => hno (e' ▸ e)
    unfold specialStep at h
    split at h
    · cases h; exact ⟨rfl, rfl⟩
    · split at h
      · next e =>
        obtain ⟨o1, o2⟩ := other _ b!"__init_array_start" b!"__init_array_end" (by simp [arrayBounds]) e
        exact (boundSymbols_other o1 o2 h).symm
      · split at h
        · next e =>
          obtain ⟨o1, o2⟩ := other _ b!"__fini_array_start" b!"__fini_array_end" (by simp [arrayBounds]) e
          exact (boundSymbols_other o1 o2 h).symm
        · cases h; exact ⟨rfl, rfl⟩
  obtain ⟨⟨t1, t2, u, h3, h4, h5, h6⟩, h7⟩ := mapAccumM_single (G := fun t : SymbolTable => t.get r) (F := fun s : Section => s.chunks.map (noted r))
    (F' := fun s : Section => s.chunks.map (noted r)) h1 hi ho
  refine ⟨⟨t1, t2, u, by rw [← hq]; exact h3, h4, ?_, h6⟩, h7⟩
  rw [h5]
  show (match w.symstr.get b!"_GLOBAL_OFFSET_TABLE_" with | some e => _ | none => w.symtab).get r = _
  cases hge : w.symstr.get b!"_GLOBAL_OFFSET_TABLE_" with
  | none => rfl
  | some e => simp only []; rw [SymbolTable.get_modify, if_neg (hgot e hge)]

/-- the mentions of a symbol before the special symbols are set -/
theorem Trip.noted_patched {sched : Sched} {w : Writer} {st : Stages sched w} {i : Nat} {s0 a p q u v s : Section} (T : Trip st i s0 a p q u v s)
    (r : SymbolRef) : q.chunks.map (Dld.noted r) = s0.chunks.map (Dld.noted r) ++ (st.growth a.ptr).add.map fun _ => [] := by
  have h2 := patchPlt_noted r st.hpatch
  have h3 : st.entries.sections = st.placed.sections := by rw [addDynEntries_rest st.hentries]; rfl
  have e2 := congrArg (·[i]?) h2
  simp only [List.getElem?_map, T.patched, h3, T.placed, Option.map_some, Option.some.injEq] at e2
  have e3 : p.chunks.map (fun c => (c.data, c.symbols, c.relocations)) =
      ((st.growth a.ptr).apply a).chunks.map (fun c => (c.data, c.symbols, c.relocations)) := T.core.2.2.2.2.2
  have e4 : a.chunks.map chunkCore = s0.chunks.map chunkCore := congrArg (·.2.2.2.2.2) T.bare
  have e5 := congrArg (List.map fun x : Bytes × List SymbolRef × List (Rela × SymbolRef) => x.2.1.filter (· == r)) e3
  have e6 := congrArg (List.map fun x : Option Nat × Bytes × List SymbolRef => x.2.2.filter (· == r)) e4
  rw [e2]
  simp only [List.map_map, Growth.apply, List.map_append] at e5 e6
  have e7 : p.chunks.map (Dld.noted r) = a.chunks.map (Dld.noted r) ++ (st.growth a.ptr).add.map fun _ => [] := e5
  have e8 : a.chunks.map (Dld.noted r) = s0.chunks.map (Dld.noted r) := e6
  rw [e7, e8]

end Writer

variable {opts : Options} {ops : List Op} {sched : Sched} {w w' : Writer} {file : Bytes} {secs : List Section}

theorem Holds.shName_iff {t : StringTable} {ns : List Name} (h : Holds t ns) {n : Name} {v : Nat} :
    t.shName n = some v ↔ n ∈ ns ∧ v = u32 (nameOff ns n) := by
  unfold StringTable.shName
  by_cases hn : n ∈ ns
  · rw [h.get?_mem hn]
    simp [hn, nameOff, eq_comm]
  · rw [h.get?_not_mem hn]
    simp [hn]

theorem baseNames_tab (h : HashStyle) : ∀ n ∈ baseNames h, n ∈ tabNames h := by cases h <;> decide

/-- the names of the sections and the table of names -/
theorem WInv.named {w0 : Writer} {pn : List Name} (hI : WInv opts w0 ops w pn) (h0 : Writer.new opts = .ok w0) (hl : w.shstr.totalLen < 2 ^ 32)
    {s : Section} (hs : s ∈ w.sections) {m : Name} (hm : Dld.nameOf w s = some m) :
    (∀ m', w.shstr.shName m' = some s.sh.sh_name ↔ m' = m) ∧
    ∀ s' ∈ w.sections, s'.sh.sh_name = s.sh.sh_name → s' = s := by
  have key : ∀ {s : Section} {i : Nat}, w.sections[i]? = some s → ∀ m, Dld.nameOf w s = some m →
      (baseNames opts.hashStyle ++ pn)[i]? = some m ∧ s.sh.sh_name = u32 (nameOff (tabNames opts.hashStyle ++ pn) m) := by
    intro s i hi m hm
    have h1 := congrArg (·[i]?) (hI.sec_names h0 hl)
    have h2 := congrArg (·[i]?) (hI.sh_names h0)
    simp only [List.getElem?_map, hi, Option.map_some] at h1 h2
    unfold Dld.nameOf at hm
    rw [hm] at h1
    obtain ⟨n, hn, e⟩ := Option.map_eq_some_iff.1 h1.symm
    cases e
    rw [hn] at h2
    exact ⟨hn, by simpa using h2⟩
  obtain ⟨i, hi⟩ := List.getElem?_of_mem hs
  obtain ⟨k1, k2⟩ := key hi m hm
  have hmem : m ∈ tabNames opts.hashStyle ++ pn := by
    rcases List.mem_append.1 (List.mem_of_getElem? k1) with h | h
    · exact List.mem_append_left _ (baseNames_tab _ m h)
    · exact List.mem_append_right _ h
  refine ⟨fun m' => ?_, fun s' hs' e => ?_⟩
  · rw [Holds.shName_iff hI.names]
    constructor
    · rintro ⟨h1, h2⟩
      exact u32_nameOff_inj hI.names hl h1 hmem (h2.symm.trans k2)
    · rintro rfl
      exact ⟨hmem, k2⟩
  · obtain ⟨j, hj⟩ := List.getElem?_of_mem hs'
    obtain ⟨k3, _⟩ := key hj m (by unfold Dld.nameOf at hm ⊢; rw [e]; exact hm)
    have : i = j := (List.getElem?_inj (List.getElem?_eq_some_iff.1 k1).1 hI.names_nodup).1 (k1.trans k3.symm)
    subst this
    rw [hi] at hj
    exact (Option.some.inj hj).symm

/-- **The bounds of an array.** -/
theorem GoodRun.bound (G : GoodRun opts ops sched w w' file secs) {r : SymbolRef} {m S E : Name} (hm : (m, S, E) ∈ arrayBounds)
    (hr : ∀ m' S' E', (m', S', E') ∈ arrayBounds → m' ≠ m → NotNamed w.symstr r S' ∧ NotNamed w.symstr r E')
    (hgot : NotNamed w.symstr r b!"_GLOBAL_OFFSET_TABLE_") {sh : SectionHeader} {d : Option Bytes} {sr : SectionRef}
    (hp : Op.push m sh d sr ∈ ops) (hnone : ∀ sr, r ∈ notesAt sr ops → sr.ptr < P.first) :
    ∃ (i : Nat) (t s0 q u : Section) (x y z : SymbolTable), secs[i]? = some t ∧ sectionsNamed file m = [t.sh.toSpec] ∧ s0 ∈ w.sections ∧ s0.ptr = sr.ptr ∧
      x.view (·.sym) = w.symtab.view (·.sym) ∧ y.get r = x.get r ∧ boundSymbols w.symstr S E y q = .ok (z, u) ∧
      (∀ c ∈ q.chunks, noted r c = []) ∧ q.chunks.map (·.data.length) = s0.chunks.map (·.data.length) ∧
      u.chunks.map (·.data.length) = s0.chunks.map (·.data.length) ∧ q.sizeOnDisk = t.sizeOnDisk ∧
      (w'.symtab.get r).map (·.sym) = (z.get r).map fun x =>
        (notesIn r (u16 i) t.sh.sh_addr u.chunks).foldl (fun y n => placeAt r n.1 n.2 y) x.sym := by
  have hmne : m ≠ [] := by
    revert m S E; intro m S E hm _ _ e
    subst e
    simp only [arrayBounds, List.mem_cons, Prod.mk.injEq, List.not_mem_nil, or_false] at hm
    rcases hm with ⟨h, _⟩ | ⟨h, _⟩ <;> exact absurd h (by decide)
  obtain ⟨t, ht, htp, hsn⟩ := G.push_section hp
  obtain ⟨t', ht', htp', htn⟩ := G.run.push_named G.good G.names hp
  obtain rfl : t' = t := eq_of_ptr (G.run.ptrs_nodup G.good.flags) ht' ht (htp'.trans htp.symm)
  obtain ⟨i, hi⟩ := List.getElem?_of_mem ht
  obtain ⟨s, hs, hfin, hfz⟩ := G.run.finalized hi
  obtain ⟨st, hst⟩ := G.run.stages
  subst hst
  obtain ⟨s0, x, p, q, u, v, T⟩ := st.trip G.run.valid G.run.hist.secFacts G.run.hist.untouched hs
  have hup : u.ptr = sr.ptr := by rw [T.ptr_u, ← T.ptr, ← hfin.ptr, htp]
  obtain ⟨s1, _, hsp1, hf1, _⟩ := G.run.hist.pushed_section hp (G.good.clean.foreign hp hmne _)
  rw [hsp1] at hf1
  obtain ⟨w0, pn, h0, hI⟩ := G.run.hist.winv
  have hz : ∀ {j : Nat} {s0 x p q u v s : Section}, Trip st j s0 x p q u v s → 0 < j → ∀ c ∈ q.chunks, noted r c = [] := by
    intro j s0 x p q u v s T hj c hc
    have h1 := T.noted_patched r
    have h2 : noted r c ∈ q.chunks.map (noted r) := List.mem_map_of_mem hc
    rw [h1] at h2
    rcases List.mem_append.1 h2 with h3 | h3
    · obtain ⟨c0, hc0, he⟩ := List.mem_map.1 h3
      rw [← he]
      obtain ⟨k, hk⟩ := List.getElem?_of_mem hc0
      have h4 := (G.run.hist.cinv.chunk ⟨s0.ptr, k⟩ c0 (by rw [chunkAt_of_mem (hI.ptrs_nodup h0) T.mem0]; exact hk)).2.2
      unfold noted
      rw [List.filter_eq_nil_iff]
      intro y hy e
      simp only [beq_iff_eq] at e
      subst e
      rw [h4, mem_notedAt] at hy
      rcases G.run.hist.noted_at G.good.clean G.good.refs hy with ⟨h5, _⟩ | ⟨h5, _⟩
      · obtain ⟨j', hj', _, hji⟩ := T.src
        obtain ⟨null, rest, e1, en⟩ := G.run.hist.secFacts.head
        have : (w.sections.map (·.ptr))[0]? = (w.sections.map (·.ptr))[j']? := by
          rw [List.getElem?_map, List.getElem?_map, hj', e1]
          simp only [List.getElem?_cons_zero, Option.map_some, en]
          exact congrArg some h5.symm
        have hl : 0 < (w.sections.map (·.ptr)).length := by rw [e1]; simp
        have := (List.getElem?_inj hl (hI.ptrs_nodup h0)).1 this
        have := hji.1 this.symm
        omega
      · exact absurd h5 (Nat.not_le.2 (hnone _ hy))
    · obtain ⟨_, _, e⟩ := List.mem_map.1 h3
      exact e.symm
  have hpos : 0 < i := by
    rcases Nat.eq_zero_or_pos i with h0 | h0
    · obtain ⟨j, hj, _, hji⟩ := T.src
      rw [hji.2 h0] at hj
      obtain ⟨null, rest, e, en⟩ := G.run.hist.secFacts.head
      rw [e] at hj
      cases hj
      rw [← hup, T.ptr_u, en] at hf1
      exact absurd hf1 (by decide)
    · exact h0
  have hqn : ∀ {j : Nat} {s0 x p q u v s : Section}, Trip st j s0 x p q u v s → q.sh.sh_name = s0.sh.sh_name := by
    intro j s0 x p q u v s T
    rw [← T.sh_name]
    exact (congrArg (·.2.2.2.2.sh_name) T.named.1).symm
  have htsh : t'.sh.sh_name = s0.sh.sh_name := by
    rw [hfin.sh, ← T.sh_name]
    have h1 : u.sh = p.sh := (congrArg (·.2.2.2.2) T.named.1).trans (congrArg (·.2.2.2.2) T.patch.1)
    rw [h1, T.sh_p]
  have hs0n : Dld.nameOf w s0 = some m := by unfold Dld.nameOf at htn ⊢; rw [← htsh]; exact htn
  obtain ⟨hN1, hN2⟩ := hI.named h0 G.names T.mem0 hs0n
  have hnd : (st.patched.sections.map (·.ptr)).Nodup := by
    have h1 := congrArg (List.map (·.1)) (st.posts.2.2.1.trans st.posts.1.symm)
    rw [List.map_map, List.map_map] at h1
    exact h1 ▸ st.placed_nodup G.run.valid G.run.hist.secFacts G.run.hist.untouched
  have trip : ∀ {j : Nat} {q' : Section}, st.patched.sections[j]? = some q' → ∃ s0 x p u v s, Trip st j s0 x p q' u v s := by
    intro j q' hj
    obtain ⟨s', hs', _⟩ := getElem?_of_map st.posts.2.2.1 hj
    obtain ⟨s0', x', p', q2, u2, v', T'⟩ := st.trip G.run.valid G.run.hist.secFacts G.run.hist.untouched hs'
    have := T'.patched
    rw [hj] at this
    cases this
    exact ⟨_, _, _, _, _, _, T'⟩
  have hqp : ∀ {j : Nat} {s0 x p q u v s : Section}, Trip st j s0 x p q u v s → q.ptr = s0.ptr := by
    intro j s0 x p q u v s T
    rw [← T.ptr_u]
    exact (congrArg (·.1) T.named.1).symm
  have hshstr : st.patched.shstr = w.shstr := by
    rw [st.patched_tables.2.2.2.2.2.2.2.2.2.2, st.dynrel_rest.1]
  have hB := special_bound st.hspecial (r := r) hm (by rw [st.patched_symstr]; exact hr) (by rw [st.patched_symstr]; exact hgot) T.patched
    (by rw [hshstr, hqn T]; exact hN1)
    (by
      intro j s' hj he
      obtain ⟨s0', x', p', u2, v', s'', T'⟩ := trip hj
      rw [hqn T, hqn T'] at he
      have := hN2 _ T'.mem0 he
      have hl : j < (st.patched.sections.map (·.ptr)).length := by simpa using (List.getElem?_eq_some_iff.1 hj).1
      exact (List.getElem?_inj hl hnd).1 (by
        rw [List.getElem?_map, List.getElem?_map, hj, T.patched, Option.map_some, Option.map_some, hqp T, hqp T', this]))
    (by
      intro a ha he
      have hap : ∃ p ∈ (baseIdents opts.hashStyle).map (·.1), p < P.first ∧ a ∈ st.patched.sections ∧ a.ptr = p := by
        rcases ha with ha | ha
        · exact ⟨P.symstr, by cases opts.hashStyle <;> decide, by decide, sec_ok ha⟩
        · exact ⟨P.shstr, by cases opts.hashStyle <;> decide, by decide, sec_ok ha⟩
      obtain ⟨pp, _, hlt, ham, hpp⟩ := hap
      obtain ⟨j, hj⟩ := List.getElem?_of_mem ham
      obtain ⟨s0', x', p', u2, v', s'', T'⟩ := trip hj
      rw [hqn T, hqn T'] at he
      have := hN2 _ T'.mem0 he
      rw [hqp T', this, ← T.ptr_u, hup] at hpp
      omega)
  obtain ⟨⟨y, z, u2, h1, h2, h3, h4⟩, h5⟩ := hB
  rw [T.special] at h2
  cases h2
  rw [st.patched_symstr] at h1
  have hfree : ∀ j u', st.special.sections[j]? = some u' → 0 < j → j ≠ i → ∀ c ∈ u'.chunks, r ∉ c.symbols := by
    intro j u' hj hj0 hne c hc hcon
    have h6 := h5 j hne
    rw [hj, Option.map_some] at h6
    obtain ⟨q', hq', he⟩ := Option.map_eq_some_iff.1 h6.symm
    obtain ⟨s0', x', p', u2, v', s'', T'⟩ := trip hq'
    have h7 : noted r c ∈ q'.chunks.map (noted r) := by rw [he]; exact List.mem_map_of_mem hc
    obtain ⟨c', hc', he'⟩ := List.mem_map.1 h7
    rw [hz T' hj0 c' hc'] at he'
    have : r ∈ noted r c := List.mem_filter.2 ⟨hcon, by simp⟩
    rw [← he'] at this
    cases this
  have hidx : u.index = i := (congrArg (·.2.1) T.named.1).trans ((congrArg (·.2.1) T.patch.1).trans (T.core.2.1.trans rfl))
  have hush : u.sh = p.sh := (congrArg (·.2.2.2.2) T.named.1).trans (congrArg (·.2.2.2.2) T.patch.1)
  have haddr : u.sh.sh_addr = t'.sh.sh_addr := by rw [hush, hfin.sh, T.sh_p]
  have hq : q = p := T.patch.2 (by rw [T.ptr_p, ← T.ptr_u, hup]; intro e; rw [e] at hf1; revert hf1; decide)
      (by rw [T.ptr_p, ← T.ptr_u, hup]; intro e; rw [e] at hf1; revert hf1; decide)
  have l1 : u.chunks.map (·.data.length) = q.chunks.map (·.data.length) := by
    have := congrArg (List.map fun x : Option Nat × Bytes × List (Rela × SymbolRef) => x.2.1.length) T.named.2
    simpa [Function.comp_def, chunkBody] using this
  have l2 : p.chunks.map (·.data.length) = x.chunks.map (·.data.length) := by
    have := congrArg (List.map fun x : Bytes × List SymbolRef × List (Rela × SymbolRef) => x.1.length) T.core.2.2.2.2.2
    rw [st.growth_pushed (p := x.ptr) (by rw [T.ptr_a, ← T.ptr_u, hup]; exact hf1)] at this
    simpa [Function.comp_def, Growth.apply] using this
  have l3 : x.chunks.map (·.data.length) = s0.chunks.map (·.data.length) := by
    have := congrArg (List.map fun x : Option Nat × Bytes × List SymbolRef => x.2.1.length) (congrArg (·.2.2.2.2.2) T.bare)
    simpa [Function.comp_def, chunkCore, bare] using this
  have l4 : q.chunks.map (·.data.length) = s0.chunks.map (·.data.length) := by rw [hq, l2, l3]
  refine ⟨i, t', s0, q, u, st.patched.symtab, y, z, hi, hsn, T.mem0, by rw [← T.ptr_u, hup], st.patched_sym, h3, h1, hz T hpos, l4, l1.trans l4, ?_, ?_⟩
  · have hkind : s.kind = .plain := by
      rcases G.run.hist.secFacts.known s0 T.mem0 with hk | hk
      · have hlt : ∀ o ∈ origins opts.hashStyle, o.1 < P.first := by cases opts.hashStyle <;> decide
        exact absurd (hlt _ hk) (Nat.not_lt.2 (by show P.first ≤ s0.ptr; rw [← T.ptr_u, hup]; exact hf1))
      · have := congrArg (·.2.2.2.1) T.bare
        have h2 := congrArg (·.2.2.2.1) T.post_s
        have h3 := T.core.2.2.2.1
        exact (h2.trans h3).trans (this.trans hk.2.1)
    unfold Section.sizeOnDisk
    rw [hfin.sh, T.sh_p, hkind, hq]
    rfl
  · rw [G.run.symbol st rfl (r := r) ?_ G.names, h4]
    · congr 1
      funext x
      congr 1
      unfold notesOf
      rw [flatMap_at (i := i - 1) (x := u)]
      · rw [haddr, hidx]
      · rw [List.getElem?_drop, Nat.add_sub_cancel' hpos]; exact T.special
      · intro j u' hj hne
        rw [List.getElem?_drop] at hj
        exact notesIn_nil (hfree _ _ hj (by omega) (by omega)) _
    · intro u' hu' hp' 
      obtain ⟨j, hj⟩ := List.getElem?_of_mem hu'
      refine hfree j u' hj ?_ ?_
      · rcases Nat.eq_zero_or_pos j with h0 | h0
        · obtain ⟨s', hs', _⟩ := getElem?_of_map st.posts.2.2.2.1 hj
          obtain ⟨s0', x', p', q2, u2, v', T'⟩ := st.trip G.run.valid G.run.hist.secFacts G.run.hist.untouched hs'
          have := T'.special
          rw [hj] at this
          cases this
          obtain ⟨j', hj', _, hji⟩ := T'.src
          rw [hji.2 h0] at hj'
          obtain ⟨null, rest, e, en⟩ := G.run.hist.secFacts.head
          rw [e] at hj'
          cases hj'
          rw [T'.ptr_u, en] at hp'
          exact absurd hp' (by decide)
        · exact h0
      · rintro rfl
        rw [T.special] at hj
        cases hj
        rw [hup] at hp'
        rcases hp' with e | e <;> rw [e] at hf1 <;> exact absurd hf1 (by decide)

end Dld
