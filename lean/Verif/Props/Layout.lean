import Verif.Lemmas.Layout
import Verif.Lemmas.Except
/-! # Properties of the section order and the layout arithmetic -/
namespace Dld

/-- **C75**: `round_to` returns the least multiple of the alignment that is not smaller than the
value, and the value itself for alignment 0. -/
theorem C75_round_to_least (v m : Nat) :
    (m = 0 → roundTo v m = v) ∧
    (m ≠ 0 → m ∣ roundTo v m ∧ v ≤ roundTo v m ∧ ∀ k, m ∣ k → v ≤ k → roundTo v m ≤ k) := by
  constructor
  · intro h; simp [roundTo, h]
  · intro h
    refine ⟨?_, le_roundTo v m, ?_⟩
    · rcases roundTo_mod v m with h' | h'
      · exact Nat.dvd_of_mod_eq_zero h'
      · exact absurd h' h
    · rintro k ⟨q, rfl⟩ hk
      unfold roundTo
      rw [if_neg h]
      simp only
      have hlt := Nat.mod_lt v (Nat.pos_of_ne_zero h)
      have hdiv := Nat.div_add_mod v m
      split
      · next hr =>
        have hq : v / m < q := by
          apply Classical.byContradiction
          intro hn
          have hn : q ≤ v / m := by omega
          have h1 := Nat.mul_le_mul_left m hn
          simp at hr; omega
        have : m * (v / m + 1) ≤ m * q := Nat.mul_le_mul_left m hq
        rw [Nat.mul_add, Nat.mul_one] at this
        omega
      · simp; omega

example : roundTo 0x1234 0x1000 = 0x2000 ∧ roundTo 0x2000 0x1000 = 0x2000 ∧ roundTo 5 0 = 5 := by decide

/-- **C36** (comparison): the comparison behind the sort is a consistent total preorder, as
`slice::sort` requires: swapping the arguments swaps the answer, "not greater" is transitive, and
"equal" means the same flags and the same alignment. -/
theorem C36_compare_total_preorder (a b c : SectionHeader) :
    sectionCmp b a = (sectionCmp a b).swap ∧
    (sectionCmp a b ≠ .gt → sectionCmp b c ≠ .gt → sectionCmp a c ≠ .gt) ∧
    (sectionCmp a b = .eq ↔ a.sh_flags = b.sh_flags ∧ a.sh_addralign = b.sh_addralign) := by
  refine ⟨?_, ?_, ?_⟩
  · unfold sectionCmp
    generalize a.sh_flags = x
    generalize b.sh_flags = y
    generalize a.sh_addralign = p
    generalize b.sh_addralign = q
    have hc : ∀ m n : Nat, compare m n = (compare n m).swap := fun m n => by
      rcases Nat.lt_trichotomy m n with h | h | h
      · rw [Nat.compare_eq_lt.2 h, Nat.compare_eq_gt.2 h]; rfl
      · subst h; rw [Nat.compare_eq_eq.2 rfl]; rfl
      · rw [Nat.compare_eq_gt.2 h, Nat.compare_eq_lt.2 h]; rfl
    rcases Nat.lt_trichotomy x y with h | h | h
    · rw [Nat.compare_eq_lt.2 h, Nat.compare_eq_gt.2 h]
      simp only
      by_cases hx : x = 0 <;> by_cases hy : y = 0 <;> simp [hx, hy, Ordering.swap] <;> omega
    · subst h; rw [Nat.compare_eq_eq.2 rfl]; simp only; rw [hc q p]
    · rw [Nat.compare_eq_gt.2 h, Nat.compare_eq_lt.2 h]
      simp only
      by_cases hx : x = 0 <;> by_cases hy : y = 0 <;> simp [hx, hy, Ordering.swap] <;> omega
  · intro h1 h2
    have := sectionLe_trans ⟨0, 0, none, .plain, a, []⟩ ⟨0, 0, none, .plain, b, []⟩
      ⟨0, 0, none, .plain, c, []⟩ (by simpa [sectionLe] using h1) (by simpa [sectionLe] using h2)
    simpa [sectionLe] using this
  · unfold sectionCmp
    rcases Nat.lt_trichotomy a.sh_flags b.sh_flags with h | h | h
    · rw [Nat.compare_eq_lt.2 h]
      simp only
      by_cases hx : a.sh_flags = 0 <;> by_cases hy : b.sh_flags = 0 <;> simp [hx, hy] <;> omega
    · rw [Nat.compare_eq_eq.2 h]
      simp only
      have := Nat.compare_eq_eq (a := a.sh_addralign) (b := b.sh_addralign)
      generalize compare a.sh_addralign b.sh_addralign = o at this
      cases o <;> simp [h, Ordering.swap] <;> simpa using this
    · rw [Nat.compare_eq_gt.2 h]
      simp only
      by_cases hx : a.sh_flags = 0 <;> by_cases hy : b.sh_flags = 0 <;> simp [hx, hy] <;> omega

theorem getElem?_mapIdx_index (l : List Section) (i : Nat) :
    (l.mapIdx fun i s => { s with index := i })[i]? = l[i]?.map fun s => { s with index := i } := by
  simp

/-- the sections without their position -/
def unplaced (l : List Section) : List Section := l.map fun s => { s with index := 0 }

/-- **C36** (result): whatever permutation the unstable sort applies to equal sections, sorting keeps
the null section first, keeps every section exactly once, numbers them by position, puts flag-less
sections last, keeps sections with equal flags together, and orders each such group by
non-increasing alignment. -/
theorem C36_section_order (order : List Section → List Section) (hord : ∀ l, (order l).Perm l)
    (null : Section) (rest out : List Section) (h : sortSections order (null :: rest) = .ok out) :
    (unplaced out).Perm (unplaced (null :: rest)) ∧
    out.head? = some { null with index := 0 } ∧
    (∀ (i : Nat) (s : Section), out[i]? = some s → s.index = i) ∧
    (∀ (i j : Nat) (a b : Section), 0 < i → i < j → out[i]? = some a → out[j]? = some b →
      (a.sh.sh_flags = 0 → b.sh.sh_flags = 0) ∧
      (a.sh.sh_flags = b.sh.sh_flags → b.sh.sh_addralign ≤ a.sh.sh_addralign)) ∧
    (∀ (i j k : Nat) (a b c : Section), 0 < i → i < j → j < k → out[i]? = some a → out[j]? = some b → out[k]? = some c →
      a.sh.sh_flags = c.sh.sh_flags → b.sh.sh_flags = a.sh.sh_flags) := by
  simp only [sortSections, Except.ok.injEq] at h
  subst h
  have hpw := stableSort_pairwise sectionLe_total sectionLe_trans (order rest)
  have hget : ∀ (i : Nat) (s : Section), ((null :: stableSort sectionLe (order rest)).mapIdx
      fun i s => { s with index := i })[i]? = some s →
      ∃ t, (null :: stableSort sectionLe (order rest))[i]? = some t ∧ s = { t with index := i } := by
    intro i s hs
    rw [getElem?_mapIdx_index] at hs
    cases ht : (null :: stableSort sectionLe (order rest))[i]? with
    | none => rw [ht] at hs; cases hs
    | some t => rw [ht] at hs; exact ⟨t, rfl, by simpa using hs.symm⟩
  have hle : ∀ (i j : Nat) (a b : Section), 0 < i → i < j → (null :: stableSort sectionLe (order rest))[i]? = some a →
      (null :: stableSort sectionLe (order rest))[j]? = some b → sectionLe a b = true := by
    intro i j a b hi hij ha hb
    obtain ⟨i', rfl⟩ : ∃ i', i = i' + 1 := ⟨i - 1, by omega⟩
    obtain ⟨j', rfl⟩ : ∃ j', j = j' + 1 := ⟨j - 1, by omega⟩
    simp only [List.getElem?_cons_succ] at ha hb
    obtain ⟨h1, rfl⟩ := List.getElem?_eq_some_iff.1 ha
    obtain ⟨h2, rfl⟩ := List.getElem?_eq_some_iff.1 hb
    exact List.pairwise_iff_getElem.1 hpw i' j' h1 h2 (by omega)
  refine ⟨?_, by simp, ?_, ?_, ?_⟩
  · have : unplaced ((null :: stableSort sectionLe (order rest)).mapIdx fun i s => { s with index := i }) =
        unplaced (null :: stableSort sectionLe (order rest)) := by
      unfold unplaced
      apply List.ext_getElem?
      intro i
      simp only [List.getElem?_map, getElem?_mapIdx_index, Option.map_map]
      rfl
    rw [this]
    unfold unplaced
    exact (((stableSort_perm _ _).trans (hord rest)).cons null).map _
  · intro i s hs
    obtain ⟨t, _, rfl⟩ := hget i s hs
    rfl
  · intro i j a b hi hij ha hb
    obtain ⟨a', ha', rfl⟩ := hget i a ha
    obtain ⟨b', hb', rfl⟩ := hget j b hb
    have := sectionLe_iff.1 (hle i j a' b' hi hij ha' hb')
    simp only [flagsLe] at this ⊢
    omega
  · intro i j k a b c hi hij hjk ha hb hc heq
    obtain ⟨a', ha', rfl⟩ := hget i a ha
    obtain ⟨b', hb', rfl⟩ := hget j b hb
    obtain ⟨c', hc', rfl⟩ := hget k c hc
    have h1 := sectionLe_flags (hle i j a' b' hi hij ha' hb')
    have h2 := sectionLe_flags (hle j k b' c' (by omega) hjk hb' hc')
    simp only at heq ⊢
    rw [← heq] at h2
    exact flagsLe_antisymm h2 h1

/-- a section with the given flags and alignment -/
def exSec (ptr flags align : Nat) : Section :=
  { ptr, sh := { sh_flags := flags, sh_addralign := align } }

example : (sortSections List.reverse
    [exSec 0 0 0, exSec 1 0 1, exSec 2 6 16, exSec 3 2 8, exSec 4 6 32, exSec 5 2 8]).map
      (fun l => l.map fun s => (s.ptr, s.index)) =
    .ok [(0, 0), (5, 1), (3, 2), (4, 3), (2, 4), (1, 5)] := by decide

end Dld
