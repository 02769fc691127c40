import Verif.Lemmas.Progress6
import Verif.Lemmas.Progress7
/-! # A link of digestible inputs succeeds -/
namespace Dld
open Writer Spec StringTable

variable {opts : Options} {ops : List Op} {sched : Sched} {w w' : Writer} {F : List Nat} {V K : Nat}

theorem Hist.span_le (h : Hist opts ops w) : w.span ≤ reach opts ops := by
  have := h.weight
  unfold Writer.span reach
  omega

namespace Spec.Digestible

theorem within (D : Digestible opts ops w F V K) (h : Hist opts ops w) : Within ops w V K := by
  refine ⟨D.fits.values, D.fits.addends, D.fits.mentions, ?_⟩
  have h1 := D.fits.small
  have h2 := Nat.mul_le_mul_left (K + 5) h.span_le
  omega

theorem span_lt (D : Digestible opts ops w F V K) (h : Hist opts ops w) : w.span < 2 ^ 27 := by
  have h1 := (D.within h).small
  have h2 : 5 * w.span ≤ (K + 5) * w.span := Nat.mul_le_mul_right _ (by omega)
  omega

theorem names (D : Digestible opts ops w F V K) (h : Hist opts ops w) :
    NamesFit w ∧ w.symstr.totalLen < 2 ^ 32 ∧ w.dynstr.totalLen < 2 ^ 32 ∧ w.dynsym.symbols.length < 2 ^ 32 := by
  have h1 := D.span_lt h
  unfold Writer.span Writer.weight at h1
  unfold NamesFit
  omega

end Spec.Digestible

theorem Writer.Mid.stages {st : Mid sched w} (D : Digestible opts ops w F V K) (M : MidFacts st) (hv : sched.Valid) (h : Hist opts ops w) : Nonempty (Stages sched w) := by
  obtain ⟨hn, hs, hds, hl⟩ := D.names h
  obtain ⟨x, hx⟩ := Mid.relocs M hv h D.good.flags D.good.clean D.good.refs hn D.dyns D.clean hds hl D.symbols (D.within h) D.relocs D.loaded
  have hx3 := handleRelocations_post hx
  have hs3 := special_post st.hspecial
  have hp3 := patchPlt_post st.hpatch
  have he := addDynEntries_rest st.hentries
  have e1 : st.entries.sections = st.placed.sections := by rw [he]; rfl
  have hptr : x.sections.map (·.ptr) = st.placed.sections.map (·.ptr) := by
    refine map_of_map (F := post) ?_ (·.1) fun _ => rfl
    rw [hx3.1, hs3.1, hp3.1, e1]
  have has : ∀ p, p ∈ (baseIdents opts.hashStyle).map (·.1) → p ∈ x.sections.map (·.ptr) := by
    intro p hp
    obtain ⟨s, hs, e⟩ := st.has hv h hp
    rw [hptr]
    exact List.mem_map.2 ⟨s, hs, e⟩
  obtain ⟨y, hy⟩ := computeTables_progress (x := x) fun p hp => has p (base_has _ p (by
    simp only [List.mem_cons, List.not_mem_nil, or_false] at hp
    rcases hp with rfl | rfl | rfl <;> simp))
  obtain ⟨_, hy1, hy2⟩ := computeTables_ok hy
  have yp : y.programHeaders = st.placed.programHeaders := by
    rw [hy2]; show x.programHeaders = _
    rw [hx3.2.2]; show st.special.programHeaders = _
    rw [hs3.2.2]; show st.patched.programHeaders = _
    rw [hp3.2]; show st.entries.programHeaders = _
    rw [he]; rfl
  have ye : y.eh = st.sorted.eh := by
    rw [hy2]; show x.eh = _
    rw [hx3.2.2]; show st.special.eh = _
    rw [hs3.2.2]; show st.patched.eh = _
    rw [hp3.2]; show st.entries.eh = _
    rw [he]; rfl
  have yn : y.symstr = w.symstr := by
    rw [hy2]; show x.symstr = _
    rw [hx3.2.2]; show st.special.symstr = _
    rw [hs3.2.2]; show st.patched.symstr = _
    rw [hp3.2]; show st.entries.symstr = _
    rw [st.entries_rest]; exact st.dynrel_symstr
  have yt : y.symtab = x.symtab := by rw [hy2]
  obtain ⟨z, hz⟩ := finishHeader_progress (x := y) (by
      intro e he
      rw [yn] at he
      have h1 := h.bound_sym D.nameless (by decide) he
      obtain ⟨s, hs⟩ := Option.isSome_iff_exists.1 h1
      obtain ⟨s1, hs1, _⟩ := SymbolTable.view_get_some st.dynrel_sym.symm hs
      obtain ⟨s2, hs2, _⟩ := (M.moved _).1 s1 hs1
      obtain ⟨g, p, a, b, rest, _, _, _, _, h2, _⟩ := handleRelocations_ok hx
      rw [yt, h2, patchAll_get, hs2]
      rfl) (by
      have : y.sections.map (·.ptr) = x.sections.map (·.ptr) := by
        rw [hy1, List.map_map]; rfl
      rw [this]
      exact has _ (base_has _ _ (by simp))) (by rw [yp]; exact (st.headers hv h D.good.flags D.good.dynamic hn D.flags).2) (by
      rw [ye, st.sorted_rest.2.2.2.1, h.untouched.eh, yp]
      have h1 := (st.headers hv h D.good.flags D.good.dynamic hn D.flags).1
      have h2 := D.kinds
      have h3 : u16 st.placed.programHeaders.length ≤ st.placed.programHeaders.length := Nat.mod_le _ _
      have h4 : initHeader.e_phentsize = 56 := rfl
      rw [h4]
      omega)
  exact ⟨{ st with relocated := x, tables := y, final := z, hreloc := hx, htables := hy, hfinal := hz }⟩

theorem Writer.Stages.written (st : Stages sched w) (hv : sched.Valid) (h : Hist opts ops w) : ∃ r, st.final.writeToDisk sched = .ok r := by
  have hptr : st.final.sections.map (·.ptr) = st.placed.sections.map (·.ptr) :=
    map_of_map st.final_post.1 (·.1) fun _ => rfl
  have has : ∀ p, p ∈ (baseIdents opts.hashStyle).map (·.1) → p ∈ st.final.sections.map (·.ptr) := by
    intro p hp
    obtain ⟨s, hs, e⟩ := st.has hv h hp
    rw [hptr]
    exact List.mem_map.2 ⟨s, hs, e⟩
  have key : ∀ s ∈ st.final.sections, ∃ t, finalizeSec sched st.final s = .ok t := by
    intro s hs
    obtain ⟨i, hi⟩ := List.getElem?_of_mem hs
    obtain ⟨s0, a, p, q, u, r, T⟩ := st.trip hv h.secFacts h.untouched hi
    have hpost := T.post_s
    have hkp : s.kind = s0.kind := by
      have h1 : s.kind = p.kind := congrArg (·.2.2.2.1) hpost
      have h2 : p.kind = a.kind := T.core.2.2.2.1
      have h3 : a.kind = s0.kind := congrArg (·.2.2.2.1) T.bare
      rw [h1, h2, h3]
    have hlp : s.link = s0.link := by
      have h1 : s.link = p.link := congrArg (·.2.2.1) hpost
      have h2 : p.link = a.link := T.core.2.2.1
      have h3 : a.link = s0.link := congrArg (·.2.2.1) T.bare
      rw [h1, h2, h3]
    have hne : ∀ p, p ∈ [P.sym, P.dynsym] → s0.ptr = p → s.chunks ≠ [] := by
      intro p hp e hnil
      simp only [List.mem_cons, List.not_mem_nil, or_false] at hp
      have h1 := T.chunks_u (by rw [e]; rcases hp with rfl | rfl <;> decide) (by rw [e]; rcases hp with rfl | rfl <;> decide)
      have h2 : (st.growth s0.ptr).add ≠ [] := by
        rw [e]
        rcases hp with rfl | rfl <;> simp [Early.growth, P.sym, P.dynsym, P.shstr, P.symstr, P.dynstr, P.got, P.gotPlt, P.plt]
      have h3 : u.chunks ≠ [] := by
        intro hu
        rw [hu, List.map_nil] at h1
        have := congrArg List.length h1
        simp only [List.length_nil, List.length_append, List.length_map] at this
        exact h2 (List.length_eq_zero_iff.1 (by omega))
      have h4 : r.chunks.length = u.chunks.length := by
        rcases Nat.eq_zero_or_pos i with h0 | h0
        · rw [T.skip h0]
        · obtain ⟨_, _, _, _, _, _, _, _, hr⟩ := T.rel h0
          have := congrArg List.length (relocSection_post hr).2
          simpa [lens] using this
      rw [T.fin] at hnil
      have := congrArg List.length hnil
      simp only [addChunks, List.length_append, List.length_nil] at this
      exact h3 (List.length_eq_zero_iff.1 (by omega))
    refine finalizeSec_progress ?_ ?_
    · intro hk
      rw [hkp] at hk
      rcases h.secFacts.known s0 T.mem0 with ho | ⟨_, hkk, _⟩
      · have ho := origins_cases ho
        simp only [Section.origin, Prod.mk.injEq] at ho
        rcases hk with hk | hk
        · refine hne P.sym (by simp) ?_
          simp [hk] at ho
          exact ho.1
        · refine hne P.dynsym (by simp) ?_
          simp [hk] at ho
          exact ho.1
      · rw [hkk] at hk
        rcases hk with hk | hk <;> cases hk
    · intro p hp
      rw [hlp] at hp
      refine has p (base_has _ p ?_)
      rcases h.secFacts.known s0 T.mem0 with ho | ⟨_, _, hl, _⟩
      · have ho := origins_cases ho
        simp only [Section.origin, Prod.mk.injEq] at ho
        rw [hp] at ho
        have : p = P.symstr ∨ p = P.dynstr ∨ p = P.dynsym := by
          simp only [Option.some.injEq, reduceCtorEq, false_and, and_false, false_or] at ho
          rcases ho with ho | ho | ho | ho | ho | ho | ho
          all_goals first | exact .inl ho.2.1 | exact .inr (.inl ho.2.1) | exact .inr (.inr ho.2.1)
        rcases this with rfl | rfl | rfl <;> simp
      · rw [hl] at hp; cases hp
  obtain ⟨r, hr⟩ := writeSections_progress (o := sizeofHeader + st.final.programHeaders.length * sizeofProgramHeader) key
  simp only [writeToDisk, hr, ok_bind]
  exact ⟨_, rfl⟩

theorem Hist.digest (h : Hist opts ops w) (hv : sched.Valid) (D : Digestible opts ops w F V K) : ∃ w' file secs, Run opts ops sched w w' file secs := by
  obtain ⟨hn, hs, hds, hl⟩ := D.names h
  obtain ⟨e⟩ := h.early hv D.symbols D.dyns hn hl
  have := D.span_lt h
  obtain ⟨m, M⟩ := e.mid hv h D.good.flags D.good.clean hn D.nameless hl (by omega)
  obtain ⟨st⟩ := Mid.stages D M hv h
  obtain ⟨⟨f, secs⟩, hr⟩ := st.written hv h
  exact ⟨st.final, f, secs, h, hv, st.computeSections, hr⟩

end Dld
