import Verif.Lemmas.Values
import Verif.Props.Symbols
/-! # The symbol a name resolves to -/
namespace Dld
open Writer Spec StringTable

namespace SymbolTable

theorem mergeAll_keeps {l : List Add} {s : Symbol} {o : Option Symbol} (hst : std s) (hd : s.sym.st_shndx ≠ 0)
    (hl : ∀ a ∈ l, a.stdBind ∧ a.rank ≤ rankOf s) (h : mergeAll (some s) l = some o) : o = some s := by
  induction l with
  | nil => simp [mergeAll] at h; exact h.symm
  | cons a l ih =>
    have ha := hl a (by simp)
    simp only [mergeAll, mergeOne] at h
    cases hr : resolve s (ofAdd a) with
    | none => simp [hr] at h
    | some s1 =>
      simp only [hr, Option.map_some] at h
      rw [resolve_eq hst ha.1] at hr
      split at hr
      · cases hr
      · rw [if_neg (c := rankOf s < a.rank) (by omega)] at hr
        cases hr
        exact ih (fun b hb => hl b (by simp [hb])) h

theorem mergeAll_value {P : Nat → Prop} {l : List Add} {o o' : Option Symbol} (ho : ∀ s, o = some s → P s.sym.st_value)
    (hl : ∀ a ∈ l, P a.sym.st_value) (h : mergeAll o l = some o') : ∀ s, o' = some s → P s.sym.st_value := by
  induction l generalizing o with
  | nil => simp [mergeAll] at h; subst h; exact ho
  | cons a l ih =>
    have ha := hl a (by simp)
    simp only [mergeAll] at h
    cases hr : mergeOne o a with
    | none => simp [hr] at h
    | some s1 =>
      simp only [hr] at h
      refine ih (o := s1) ?_ (fun b hb => hl b (by simp [hb])) h
      intro s hs
      subst hs
      cases o with
      | none => simp [mergeOne] at hr; subst hr; exact ha
      | some old =>
        have hv := ho old rfl
        simp only [mergeOne] at hr
        cases hm : resolve old (ofAdd a) with
        | none => simp [hm] at hr
        | some s' =>
          rw [hm] at hr
          cases hr
          unfold resolve at hm
          split at hm
          · cases hm
          split at hm
          · cases hm; exact ha
          split at hm
          · cases hm; exact hv
          · cases hm; exact hv

end SymbolTable
open SymbolTable

/-- a definition that is stronger than all earlier mentions and at least as strong as all later ones is kept -/
theorem definition_kept {d : Bool} {l1 l2 : List Add} {x : Add} {t : SymbolTable} {n : Nat}
    (h : (SymbolTable.new d).addAll (l1 ++ x :: l2) = .ok t)
    (hs : ∀ a ∈ l1 ++ x :: l2, a.mentions n → a.stdBind) (hn : n ≠ 0) (hxm : x.mentions n) (hxd : x.defined)
    (hl1 : ∀ a ∈ l1, a.mentions n → a.rank < x.rank) (hl2 : ∀ a ∈ l2, a.mentions n → a.rank ≤ x.rank) :
    ∃ s, t.get (.named n) = some s ∧ s.sym = x.sym := by
  have hnull : ¬ nullAdd.mentions n := fun h => hn h.2.symm
  have hall : ∀ a ∈ nullAdd :: (l1 ++ x :: l2), a.mentions n → a.stdBind := by
    intro a ha ham
    rcases List.mem_cons.1 ha with rfl | ha
    · exact nullAdd_std
    · exact hs a ha ham
  rw [addAll_new] at h
  have hok := addAll_ok h n
  rw [empty_get?] at hok
  have hxs := hs x (by simp) hxm
  have : mentionsOf n (nullAdd :: (l1 ++ x :: l2)) =
      mentionsOf n (nullAdd :: l1) ++ x :: mentionsOf n l2 := by
    rw [← List.cons_append, mentionsOf_append, mentionsOf_cons _ _ _ hxm]
  rw [this] at hok
  obtain ⟨s1, s2, h1, h2, h3⟩ := mergeAll_split hok
  have hs2 : ∃ y, s2 = some y ∧ y.sym = x.sym ∧ std y := by
    cases s1 with
    | none => simp [mergeOne] at h2; exact ⟨_, h2.symm, rfl, hxs⟩
    | some old =>
      have hne : mentionsOf n (nullAdd :: l1) ≠ [] := by
        intro e; rw [e] at h1; simp [mergeAll] at h1
      obtain ⟨y, hy, hM⟩ := mergeAll_merged hne (fun b hb => by
        have := mem_mentionsOf.1 hb
        exact hall b (by rcases List.mem_cons.1 this.1 with h | h <;> simp [h]) this.2) h1
      cases hy
      have hlt : rankOf old < x.rank := by
        rw [hM.rank]
        obtain ⟨b, hb, hbr⟩ := exists_maxRank hne
        rw [← hbr]
        have hb' := mem_mentionsOf.1 hb
        rcases List.mem_cons.1 hb'.1 with rfl | hbl
        · exact absurd hb'.2 hnull
        · exact hl1 b hbl hb'.2
      simp only [mergeOne] at h2
      have := rank_le_two x
      rw [resolve_eq hM.std hxs, if_neg (by omega), if_pos (by omega)] at h2
      simp at h2
      refine ⟨_, h2.symm, ?_, hxs⟩
      obtain ⟨a, l', hal, -, -, -, hname⟩ := hM.reference
      have han : a.sym.st_name = n := by
        have : a ∈ mentionsOf n (nullAdd :: l1) := by rw [hal]; simp
        exact (mem_mentionsOf.1 this).2.2
      simp only [hname, han, ← hxm.2]
  obtain ⟨y, rfl, hy, hyst⟩ := hs2
  have hyr : rankOf y = x.rank := by unfold rankOf Add.rank Add.bind; rw [hy]
  have := mergeAll_keeps hyst (by rw [hy]; exact hxd) (fun b hb => by
    have := mem_mentionsOf.1 hb
    exact ⟨hs b (by simp [this.1]) this.2, by rw [hyr]; exact hl2 b this.1 this.2⟩) h3
  exact ⟨y, this, hy⟩

/-- the value of a name is that of one of its mentions -/
theorem merged_value {d : Bool} {l : List Add} {t : SymbolTable} {n : Nat}
    (h : (SymbolTable.new d).addAll l = .ok t) {s : Symbol} (hn : n ≠ 0) (hs : t.get (.named n) = some s) :
    ∃ a ∈ l, a.mentions n ∧ s.sym.st_value = a.sym.st_value := by
  have hnull : ¬ nullAdd.mentions n := fun h => hn h.2.symm
  rw [addAll_new] at h
  have hok := addAll_ok h n
  rw [empty_get?] at hok
  refine mergeAll_value (P := fun v => ∃ a ∈ l, a.mentions n ∧ v = a.sym.st_value) (o := none) (by simp)
    (l := mentionsOf n (nullAdd :: l)) ?_ hok s hs
  intro a ha
  have := mem_mentionsOf.1 ha
  rcases List.mem_cons.1 this.1 with rfl | hm
  · exact absurd this.2 hnull
  · exact ⟨a, hm, this.2, rfl⟩

end Dld
