import Verif.Lemmas.LinkGood
import Verif.Lemmas.Listed
import Verif.Props.Got
/-! # The place of the dynamic symbols -/
namespace Dld
open Spec Writer SymbolTable
variable {opts : Options} {ops : List Op} {sched : Sched} {w w' : Writer} {file : Bytes} {secs : List Section}

/-- a symbol without its value -/
def unvalue (s : Symbol) : Symbol := { s with sym := { s.sym with st_value := 0 } }

theorem dynRelStep_unvalue {ix : List (Nat × Nat)} {st st' : DynState} {k : Nat} (h : dynRelStep ix st k = .ok st') :
    st'.dynsym.view unvalue = st.dynsym.view unvalue := by
  simp only [dynRelStep, bind_ok] at h
  obtain ⟨sym, hs, h⟩ := h
  cases hd : sym.dynamic with
  | none => rw [hd] at h; cases h; rfl
  | some d =>
    rw [hd] at h
    simp only [bind_ok] at h
    obtain ⟨ix, _, ds, _, h⟩ := h
    cases hp : sym.inGotPlt <;> rw [hp] at h <;> cases h
    all_goals
      cases sym.inGot <;> cases ds.isObject <;> first | rfl | exact view_modify fun s => rfl

theorem genDynRels_unvalue {w w' : Writer} (h : w.genDynRels sched = .ok w') : w'.dynsym.view unvalue = w.dynsym.view unvalue := by
  simp only [genDynRels, bind_ok] at h
  obtain ⟨st, h1, h2⟩ := h
  cases h2
  exact foldM'_state (G := fun st : DynState => st.dynsym.view unvalue) (fun s a s' h => dynRelStep_unvalue h) h1

/-- dynamic symbols are undefined before the layout -/
theorem Hist.dyn_undef (h : Hist opts ops w) {r : SymbolRef} {s : Symbol} (hs : w.dynsym.get r = some s) : s.sym.st_shndx = 0 := by
  obtain ⟨ns, nd, T⟩ := h.tableFacts
  have key := SymbolTable.addAll_forall (P := fun _ s => s.sym.st_shndx = 0) T.inv.dyn ?_ ?_ ?_ ?_
  · exact key r s hs
  · intro a ha _
    obtain ⟨_, _, _, _, _, rfl⟩ := mem_dynAdds ha
    rfl
  · intro a ha _ _
    obtain ⟨_, _, _, _, _, rfl⟩ := mem_dynAdds ha
    rfl
  · intro a ha r old s ho hr
    obtain ⟨_, _, _, _, _, rfl⟩ := mem_dynAdds ha
    rcases resolve_cases hr with ⟨_, _, g⟩ | ⟨_, _, g⟩
    · rw [g]; rfl
    · rw [g, if_pos ho]; rfl
  · intro r s hr
    obtain ⟨_, rfl⟩ := new_get hr
    rfl

/-- where a dynamic symbol is at the end: nowhere, or in `.copyrel` if it is a data object -/
theorem Writer.Stages.final_place (st : Stages sched w) (hv : sched.Valid) (hh : Hist opts ops w) (hc : st.final.sections.length ≤ 65536)
    {k : Nat} {y : Symbol} (hy : st.final.dynsym.get (.named k) = some y) : y.sym.st_shndx = 0 ↔ y.sym.st_info % 16 ≠ 1 := by
  obtain ⟨_, f2, _⟩ := st.final_tables
  obtain ⟨_, p2, _⟩ := st.patched_tables
  have hs := st.hspecial
  simp only [handleSpecialSymbols, bind_ok, Prod.exists] at hs
  obtain ⟨g, _, a, _, b, _, t, ss, h1, c, hcs, h2⟩ := hs
  have hss : st.special.sections = ss := by rw [← Except.ok.inj h2]
  rw [f2, ← Except.ok.inj h2] at hy
  simp only at hy
  rw [p2, SymbolTable.get_updateObjectSymbols, Option.map_eq_some_iff] at hy
  obtain ⟨s, hs, rfl⟩ := hy
  have hu : s.sym.st_shndx = 0 := by
    obtain ⟨z, hz, e⟩ := SymbolTable.view_get_some (genDynRels_unvalue st.hdynrel) hs
    have e2 : (st.filled.expandRest sched).dynsym = w.dynsym := st.filled_tables.2.1
    rw [e2] at hz
    have := hh.dyn_undef hz
    rw [← this]
    exact congrArg (·.sym.st_shndx) e
  by_cases ho : s.isObject = true
  · rw [if_pos ho]
    have h1 : s.sym.st_info % 16 = 1 := by simpa [Symbol.isObject, stType, STT_OBJECT] using ho
    simp only [h1, ne_eq, not_true_eq_false, iff_false]
    obtain ⟨mc, pc⟩ := sec_ok hcs
    obtain ⟨i, hi⟩ := List.getElem?_of_mem mc
    have hi : st.special.sections[i]? = some c := by rw [hss]; exact hi
    obtain ⟨hx, z, hz⟩ := st.special_index hv hh hi
    have hlt := (List.getElem?_eq_some_iff.1 hz).1
    have h0i : 0 < i := by
      refine Nat.pos_of_ne_zero fun h => ?_
      obtain ⟨s, hs, _⟩ := getElem?_of_map st.posts.2.2.2.1 hi
      obtain ⟨s0, a, p, q, u', v, T⟩ := st.trip hv hh.secFacts hh.untouched hs
      have := T.special
      rw [hi] at this
      cases this
      obtain ⟨j, hj, _, hz⟩ := T.src
      have hj0 := hz.2 h
      obtain ⟨null, rest, e, hn⟩ := hh.secFacts.head
      rw [hj0, e] at hj
      simp at hj
      subst hj
      have := T.ptr_u
      rw [pc, hn] at this
      exact absurd this (by decide)
    rw [hx, u16, Nat.mod_eq_of_lt (by omega)]
    omega
  · rw [if_neg ho]
    refine ⟨fun _ h => ho (by simpa [Symbol.isObject, stType, STT_OBJECT] using h), fun _ => hu⟩

end Dld
