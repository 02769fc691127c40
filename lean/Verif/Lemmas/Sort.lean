import Verif.Model.Bytes
/-! # Lemmas about the stable sort -/
namespace Dld
variable {α : Type}

theorem insertSorted_perm (le : α → α → Bool) (x : α) (l : List α) :
    (insertSorted le x l).Perm (x :: l) := by
  induction l with
  | nil => simp [insertSorted]
  | cons y ys ih =>
    unfold insertSorted
    split
    · exact .refl _
    · exact (ih.cons y).trans (.swap x y ys)

theorem stableSort_perm (le : α → α → Bool) (l : List α) : (stableSort le l).Perm l := by
  induction l with
  | nil => simp [stableSort]
  | cons x xs ih => exact (insertSorted_perm le x _).trans (ih.cons x)

theorem length_stableSort (le : α → α → Bool) (l : List α) : (stableSort le l).length = l.length :=
  (stableSort_perm le l).length_eq

theorem mem_stableSort {le : α → α → Bool} {l : List α} {x : α} : x ∈ stableSort le l ↔ x ∈ l :=
  (stableSort_perm le l).mem_iff

theorem insertSorted_pairwise {le : α → α → Bool}
    (total : ∀ a b, le a b = true ∨ le b a = true)
    (trans : ∀ a b c, le a b = true → le b c = true → le a c = true)
    (x : α) (l : List α) (h : l.Pairwise (fun a b => le a b = true)) :
    (insertSorted le x l).Pairwise (fun a b => le a b = true) := by
  induction l with
  | nil => simp [insertSorted]
  | cons y ys ih =>
    unfold insertSorted
    rw [List.pairwise_cons] at h
    split
    · next hxy =>
      rw [List.pairwise_cons]
      refine ⟨?_, by rw [List.pairwise_cons]; exact h⟩
      intro z hz
      rcases List.mem_cons.1 hz with rfl | hz
      · exact hxy
      · exact trans _ _ _ hxy (h.1 z hz)
    · next hxy =>
      rw [List.pairwise_cons]
      refine ⟨?_, ih h.2⟩
      intro z hz
      rcases List.mem_cons.1 ((insertSorted_perm le x ys).mem_iff.1 hz) with rfl | hz
      · exact (total _ _).resolve_left hxy
      · exact h.1 z hz

theorem stableSort_pairwise {le : α → α → Bool}
    (total : ∀ a b, le a b = true ∨ le b a = true)
    (trans : ∀ a b c, le a b = true → le b c = true → le a c = true) (l : List α) :
    (stableSort le l).Pairwise (fun a b => le a b = true) := by
  induction l with
  | nil => simp [stableSort]
  | cons x xs ih => exact insertSorted_pairwise total trans x _ ih

/-- A sorted list is not changed by sorting. -/
theorem stableSort_of_pairwise {le : α → α → Bool} {l : List α}
    (h : l.Pairwise (fun a b => le a b = true)) : stableSort le l = l := by
  induction l with
  | nil => rfl
  | cons x xs ih =>
    rw [List.pairwise_cons] at h
    rw [stableSort, ih h.2]
    cases xs with
    | nil => rfl
    | cons y ys => simp [insertSorted, h.1 y (by simp)]

/-- Two permutations that are both sorted by an order that is antisymmetric on their elements are
equal. -/
theorem eq_of_perm_pairwise {r : α → α → Prop} :
    ∀ {l l' : List α}, l.Perm l' → l.Pairwise r → l'.Pairwise r →
      (∀ a ∈ l, ∀ b ∈ l, r a b → r b a → a = b) → l = l'
  | [], l', hp, _, _, _ => (List.nil_perm.1 hp).symm
  | x :: xs, [], hp, _, _, _ => absurd hp.length_eq (by simp)
  | x :: xs, y :: ys, hp, h, h', anti => by
    rw [List.pairwise_cons] at h h'
    have hxy : x = y := by
      rcases List.mem_cons.1 (hp.mem_iff.1 (List.mem_cons_self (a := x) (l := xs))) with e | hx
      · exact e
      · rcases List.mem_cons.1 (hp.mem_iff.2 (List.mem_cons_self (a := y) (l := ys))) with e | hy
        · exact e.symm
        · exact anti x (by simp) y (by simp [hy]) (h.1 y hy) (h'.1 x hx)
    subst hxy
    rw [eq_of_perm_pairwise (List.perm_cons x |>.1 hp) h.2 h'.2
      (fun a ha b hb => anti a (by simp [ha]) b (by simp [hb]))]

end Dld
