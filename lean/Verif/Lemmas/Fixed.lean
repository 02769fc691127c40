import Verif.Spec.Fixed
import Verif.Lemmas.Files
/-! # Symbols that are not in a section of their file -/
namespace Dld
open Writer Spec

variable {env : Env} {l : Linker} {N : List Call → Name → Prop} {loaded pre post : List Loaded} {log : List Call} {x : Loaded}

namespace Calls

/-- the call for a definition outside the sections: no mention of the name has a section, and the definition decides -/
theorem fixed_call (h : Calls env l N loaded log) (hc : CleanFiles env l) (e : loaded = pre ++ x :: post) {j : Nat} {s : Sym} {n : Name}
    (hd : FixedDefinition pre x post j s n) :
    ∃ A B sec y, log = A ++ ⟨x.source, .symbol j, .sym s sec n x.path y⟩ :: B ∧
      (∀ s' sec' sr', Mention (opsOf log) s' sec' n → ¬ Attached (opsOf log) s' sec' sr') ∧
      (∀ s' sec', Mention (opsOf A) s' sec' n → s'.st_info / 16 ≤ 2 ∧ bindRank s' < bindRank s) ∧
      (∀ s' sec', Mention (opsOf B) s' sec' n → s'.st_info / 16 ≤ 2 ∧ bindRank s' ≤ bindRank s) := by
  have hx : x ∈ loaded := by rw [e]; simp
  obtain ⟨A, B, n', sec, y, hl, hn', _, _⟩ := h.symbol_after hx hd.symbol.1
  rw [hd.symbol.2.1] at hn'
  cases hn'
  refine ⟨A, B, sec, y, hl, ?_, ?_, ?_⟩
  · intro s' sec' sr' hm hat
    obtain ⟨⟨path, r, hop⟩, h3⟩ := hm
    obtain ⟨c, hcm, ec⟩ := List.mem_map.1 hop
    by_cases h0 : s'.st_shndx = 0
    · exact h.undefined_unattached hc ⟨⟨path, r, hop⟩, h3⟩ h0 sr' hat
    · obtain ⟨a1, b1, e1⟩ := List.append_of_mem hcm
      have hj := h.just a1 c b1 e1
      cases hj with
      | «section» => cases ec
      | symbol hy hj2 hn2 hs2 =>
        cases ec
        obtain ⟨h1, h2⟩ := hd.only _ (by rw [← e]; exact hy) _ _ ⟨hj2, hn2, h3⟩ h0
        subst h1 h2
        rw [hd.symbol.1] at hj2
        cases hj2
        rcases hd.fixed with hf | hf
        · exact hat.2.1 hf
        · rw [hat.1] at hs2
          obtain ⟨n4, sh4, d4, g4⟩ := (hs2 sr').1 rfl
          obtain ⟨g5, _⟩ := h.push_call hy (by rw [e1]; exact List.mem_append_left _ g4)
          have := (List.getElem?_eq_some_iff.1 g5).1
          omega
      | reloc => cases ec
      | dynsym => cases ec
      | needed => cases ec
  · intro s' sec' hm
    obtain ⟨z, hz, j', hj', hbef⟩ := h.mention_call hl hm
    refine ⟨(hd.binds z (by rw [← e]; exact hz) _ _ hj').1, ?_⟩
    rcases h.symbols_before e hl (List.getElem?_eq_some_iff.1 hd.symbol.1).1 hz hbef with h1 | ⟨h1, h2⟩
    · exact hd.before.1 z h1 _ _ hj'
    · rw [h1] at hj'
      exact hd.before.2 _ _ hj' h2
  · rintro s' sec' ⟨⟨p, r, hop⟩, h3⟩
    obtain ⟨z, hz, j', hj', _⟩ := h.mention_call (a := log) (b := []) (by simp) ⟨⟨p, r, by
      rw [hl, opsOf_append]; exact List.mem_append_right _ (List.mem_cons_of_mem _ hop)⟩, h3⟩
    exact hd.binds z (by rw [← e]; exact hz) _ _ hj'

end Calls
end Dld
