import Verif.Model.StringTable
import Verif.Lemmas.AMap
import Verif.Lemmas.Sort
import Verif.Lemmas.Bytes
/-! # The string table as a list of distinct names -/
namespace Dld
namespace StringTable
open Spec

/-- bytes taken by a list of names, one NUL each -/
def total : List Name → Nat
  | [] => 0
  | n :: ns => n.length + 1 + total ns

/-- the entries of a table that interned `ns` in that order -/
def lay : Nat → Nat → List Name → List (Name × (Nat × Nat))
  | _, _, [] => []
  | i, o, n :: ns => (n, (i, o)) :: lay (i + 1) (o + (n.length + 1)) ns

theorem total_append (a b : List Name) : total (a ++ b) = total a + total b := by
  induction a with
  | nil => simp [total]
  | cons n ns ih => simp [total, ih]; omega

theorem lay_append (i o : Nat) (a b : List Name) :
    lay i o (a ++ b) = lay i o a ++ lay (i + a.length) (o + total a) b := by
  induction a generalizing i o with
  | nil => simp [lay, total]
  | cons n ns ih =>
    simp only [List.cons_append, lay, ih, total, List.length_cons]
    rw [show i + 1 + ns.length = i + (ns.length + 1) by omega,
      show o + (n.length + 1) + total ns = o + (n.length + 1 + total ns) by omega]

@[simp] theorem keys_lay (i o : Nat) (ns : List Name) : AMap.keys (lay i o ns) = ns := by
  induction ns generalizing i o with
  | nil => rfl
  | cons n ns ih => simpa [lay, AMap.keys] using ih _ _

@[simp] theorem length_lay (i o : Nat) (ns : List Name) : (lay i o ns).length = ns.length := by
  have := congrArg List.length (keys_lay i o ns)
  simpa [AMap.keys] using this

theorem get?_lay {n : Name} (i o : Nat) {ns : List Name} (h : n ∈ ns) :
    AMap.get? (lay i o ns) n = some (i + ns.idxOf n, o + total (ns.take (ns.idxOf n))) := by
  induction ns generalizing i o with
  | nil => simp at h
  | cons m ns ih =>
    by_cases hm : m = n
    · subst hm; simp [lay, AMap.get?, total]
    · have hn : n ∈ ns := by
        rcases List.mem_cons.1 h with e | h'
        · exact absurd e.symm hm
        · exact h'
      have hi : (m :: ns).idxOf n = ns.idxOf n + 1 := by
        rw [List.idxOf_cons, beq_false_of_ne hm]; rfl
      simp only [lay, AMap.get?, hm, if_false, ih _ _ hn, hi, List.take_succ_cons, total]
      congr 2 <;> omega

theorem get?_lay_none {n : Name} (i o : Nat) {ns : List Name} (h : n ∉ ns) :
    AMap.get? (lay i o ns) n = none := by
  rw [AMap.get?_eq_none, keys_lay]; exact h

theorem total_take_lt {ns : List Name} {i j : Nat} (hij : i < j) (hi : i < ns.length) :
    total (ns.take i) < total (ns.take j) := by
  have h : ns.take j = ns.take i ++ (ns.drop i).take (j - i) := by
    rw [← List.take_append_drop i (ns.take j), List.take_take, Nat.min_eq_left (by omega),
      List.drop_take]
  rw [h, total_append]
  have : (ns.drop i).take (j - i) ≠ [] := by
    intro h
    have := congrArg List.length h
    simp at this; omega
  cases hd : (ns.drop i).take (j - i) with
  | nil => exact absurd hd this
  | cons a l => simp [total]; omega

theorem total_take_inj {ns : List Name} {i j : Nat} (hi : i < ns.length) (hj : j < ns.length)
    (h : total (ns.take i) = total (ns.take j)) : i = j := by
  rcases Nat.lt_trichotomy i j with hlt | rfl | hlt
  · have := total_take_lt hlt hi; omega
  · rfl
  · have := total_take_lt hlt hj; omega

/-- `t` holds exactly the names `ns`, interned in that order, the first being the empty name. -/
structure Holds (t : StringTable) (ns : List Name) : Prop where
  names : t.names = lay 0 0 ns
  nodup : ns.Nodup
  total : t.totalLen = total ns
  head : ns.head? = some []

theorem Holds.get?_mem {t : StringTable} {ns : List Name} (h : Holds t ns) {n : Name} (hn : n ∈ ns) :
    AMap.get? t.names n = some (ns.idxOf n, StringTable.total (ns.take (ns.idxOf n))) := by
  rw [h.names, get?_lay 0 0 hn]; simp

theorem Holds.get?_not_mem {t : StringTable} {ns : List Name} (h : Holds t ns) {n : Name}
    (hn : n ∉ ns) : AMap.get? t.names n = none := by
  rw [h.names, get?_lay_none 0 0 hn]

/-- the names after asking for `n` -/
def intern (ns : List Name) (n : Name) : List Name := if n ∈ ns then ns else ns ++ [n]

theorem Holds.getOrCreate_mem {t : StringTable} {ns : List Name} (h : Holds t ns) {n : Name}
    (hn : n ∈ ns) :
    t.getOrCreate n = ({ index := ns.idxOf n, offset := StringTable.total (ns.take (ns.idxOf n)),
                         new := false }, t) := by
  simp [getOrCreate, h.get?_mem hn]

theorem Holds.getOrCreate_new {t : StringTable} {ns : List Name} (h : Holds t ns) {n : Name}
    (hn : n ∉ ns) :
    (t.getOrCreate n).1 = { index := ns.length, offset := StringTable.total ns, new := true } := by
  simp only [getOrCreate, h.get?_not_mem hn]
  simp [h.names, h.total]

theorem Holds.getOrCreate {t : StringTable} {ns : List Name} (h : Holds t ns) (n : Name) :
    Holds (t.getOrCreate n).2 (intern ns n) := by
  by_cases hn : n ∈ ns
  · rw [h.getOrCreate_mem hn]; simpa [intern, hn] using h
  · simp only [StringTable.getOrCreate, h.get?_not_mem hn, intern, hn, if_false]
    refine ⟨?_, ?_, ?_, ?_⟩
    · simp [h.names, lay_append, lay, h.total]
    · rw [List.nodup_append]
      refine ⟨h.nodup, by simp, ?_⟩
      intro a ha b hb e
      rw [List.mem_singleton] at hb
      exact hn (hb ▸ e ▸ ha)
    · simp [h.total, total_append, StringTable.total]
    · rw [List.head?_append, h.head]; rfl

theorem getOrCreate_sectionStrtab (t : StringTable) (n : Name) :
    (t.getOrCreate n).2.sectionStrtab = t.sectionStrtab := by
  unfold StringTable.getOrCreate; split <;> rfl

theorem holds_default : Holds default [[]] := by
  refine ⟨rfl, by simp, rfl, rfl⟩

theorem Holds.of_sectionStrtab {t : StringTable} {ns : List Name} (h : Holds t ns) (o : Option Nat) :
    Holds { t with sectionStrtab := o } ns := ⟨h.names, h.nodup, h.total, h.head⟩

theorem holds_withName (n : Name) : Holds (withName n) (intern [[]] n) :=
  (holds_default.getOrCreate n).of_sectionStrtab _

theorem Holds.entry {t : StringTable} {ns : List Name} (h : Holds t ns) (n : Name) :
    (t.getOrCreate n).1.index = (intern ns n).idxOf n ∧
    (t.getOrCreate n).1.offset = StringTable.total ((intern ns n).take ((intern ns n).idxOf n)) := by
  by_cases hn : n ∈ ns
  · rw [h.getOrCreate_mem hn]; simp [intern, hn]
  · rw [h.getOrCreate_new hn]
    have : (ns ++ [n]).idxOf n = ns.length := by
      rw [List.idxOf_append, if_neg hn]; simp
    simp [intern, hn, this]

theorem mem_intern (ns : List Name) (n : Name) : n ∈ intern ns n := by
  unfold intern; split <;> simp [*]

theorem subset_intern {ns : List Name} {m : Name} (n : Name) (h : m ∈ ns) : m ∈ intern ns n := by
  unfold intern; split <;> simp [h]

/-- ask for a list of names -/
def after (t : StringTable) (names : List Name) : StringTable :=
  names.foldl (fun t n => (t.getOrCreate n).2) t

/-- the distinct names after asking for a list of names -/
def internAll (ns names : List Name) : List Name := names.foldl intern ns

theorem Holds.after {t : StringTable} {ns : List Name} (h : Holds t ns) (names : List Name) :
    Holds (t.after names) (internAll ns names) := by
  induction names generalizing t ns with
  | nil => exact h
  | cons n names ih => exact ih (h.getOrCreate n)

theorem internAll_prefix (ns names : List Name) : ns <+: internAll ns names := by
  induction names generalizing ns with
  | nil => exact List.prefix_refl _
  | cons n names ih =>
    refine List.IsPrefix.trans ?_ (ih (intern ns n))
    unfold intern; split
    · exact List.prefix_refl _
    · exact List.prefix_append _ _

theorem idxOf_prefix {ns ns' : List Name} {n : Name} (hp : ns <+: ns') (hn : n ∈ ns) :
    ns'.idxOf n = ns.idxOf n := by
  obtain ⟨l, rfl⟩ := hp
  rw [List.idxOf_append, if_pos hn]

theorem take_idxOf_prefix {ns ns' : List Name} {n : Name} (hp : ns <+: ns') (hn : n ∈ ns) :
    ns'.take (ns'.idxOf n) = ns.take (ns.idxOf n) := by
  rw [idxOf_prefix hp hn]
  obtain ⟨l, rfl⟩ := hp
  rw [List.take_append_of_le_length (Nat.le_of_lt (List.idxOf_lt_length_iff.2 hn))]

theorem mem_internAll {ns names : List Name} {n : Name} :
    n ∈ internAll ns names ↔ n ∈ ns ∨ n ∈ names := by
  induction names generalizing ns with
  | nil => simp [internAll]
  | cons m names ih =>
    rw [show internAll ns (m :: names) = internAll (intern ns m) names from rfl, ih]
    unfold intern
    split
    · next h =>
      constructor
      · rintro (h' | h') <;> simp [h']
      · rintro (h' | h')
        · exact .inl h'
        · rcases List.mem_cons.1 h' with rfl | h''
          · exact .inl h
          · exact .inr h''
    · simp [or_assoc]

theorem mem_lay {e : Name × (Nat × Nat)} {i o : Nat} {ns : List Name} (hn : ns.Nodup) (h : e ∈ lay i o ns) :
    e.1 ∈ ns ∧ e.2 = (i + ns.idxOf e.1, o + total (ns.take (ns.idxOf e.1))) := by
  obtain ⟨n, v⟩ := e
  have hk : n ∈ ns := by
    have : n ∈ AMap.keys (lay i o ns) := List.mem_map_of_mem (f := (·.1)) h
    simpa using this
  refine ⟨hk, ?_⟩
  have h1 := AMap.get?_of_mem (by rw [keys_lay]; exact hn) h
  rw [get?_lay i o hk] at h1
  exact (Option.some.inj h1).symm

theorem mem_lay_of_mem {n : Name} {i o : Nat} {ns : List Name} (h : n ∈ ns) :
    (n, (i + ns.idxOf n, o + total (ns.take (ns.idxOf n)))) ∈ lay i o ns :=
  AMap.mem_of_get? (get?_lay i o h)

theorem offset_inj {ns : List Name} {a b : Name} (ha : a ∈ ns) (hb : b ∈ ns)
    (h : total (ns.take (ns.idxOf a)) = total (ns.take (ns.idxOf b))) : a = b := by
  have hi := total_take_inj (List.idxOf_lt_length_iff.2 ha) (List.idxOf_lt_length_iff.2 hb) h
  have h1 := List.getElem_idxOf (List.idxOf_lt_length_iff.2 ha)
  have h2 := List.getElem_idxOf (List.idxOf_lt_length_iff.2 hb)
  rw [← h1, ← h2]
  congr 1

theorem lay_pairwise (i o : Nat) (ns : List Name) :
    (lay i o ns).Pairwise (fun a b => a.2.2 < b.2.2) ∧ ∀ e ∈ lay i o ns, o ≤ e.2.2 := by
  induction ns generalizing i o with
  | nil => simp [lay]
  | cons n ns ih =>
    have := ih (i + 1) (o + (n.length + 1))
    simp only [lay, List.pairwise_cons, List.mem_cons]
    refine ⟨⟨fun e he => ?_, this.1⟩, ?_⟩
    · have := this.2 e he
      show o < e.2.2
      omega
    · rintro e (rfl | he)
      · exact Nat.le_refl _
      · have := this.2 e he; omega

/-- Sorting the entries by offset gives the insertion order, whatever the iteration order. -/
theorem sortedNamesIn_perm {entries : List (Name × (Nat × Nat))} {i o : Nat} {ns : List Name}
    (hp : entries.Perm (lay i o ns)) : sortedNamesIn entries = lay i o ns := by
  refine eq_of_perm_pairwise (r := fun a b => decide (a.2.2 ≤ b.2.2) = true)
    ((stableSort_perm _ _).trans hp)
    (stableSort_pairwise (fun a b => by simpa using Nat.le_total _ _)
      (fun a b c => by simpa using Nat.le_trans) _)
    ((lay_pairwise i o ns).1.imp fun h => by simpa using Nat.le_of_lt h) ?_
  intro a ha b hb h1 h2
  have ha' := ((stableSort_perm _ _).trans hp).mem_iff.1 ha
  have hb' := ((stableSort_perm _ _).trans hp).mem_iff.1 hb
  have he : a.2.2 = b.2.2 := Nat.le_antisymm (by simpa using h1) (by simpa using h2)
  have hpw := (lay_pairwise i o ns).1
  by_cases hab : a = b
  · exact hab
  · exfalso
    have hne : ∀ {l : List (Name × (Nat × Nat))} {a b}, l.Pairwise (fun a b => a.2.2 < b.2.2) → a ∈ l →
        b ∈ l → a ≠ b → a.2.2 ≠ b.2.2 := by
      intro l a b hl ha hb hab
      induction l with
      | nil => simp at ha
      | cons x xs ih =>
        rw [List.pairwise_cons] at hl
        rcases List.mem_cons.1 ha with rfl | ha' <;> rcases List.mem_cons.1 hb with rfl | hb'
        · exact absurd rfl hab
        · exact Nat.ne_of_lt (hl.1 _ hb')
        · exact Nat.ne_of_gt (hl.1 _ ha')
        · exact ih hl.2 ha' hb'
    exact hne hpw ha' hb' hab he

theorem flatMap_lay (i o : Nat) (ns : List Name) :
    (lay i o ns).flatMap (fun e => serName e.1) = ns.flatMap serName := by
  induction ns generalizing i o with
  | nil => rfl
  | cons n ns ih => simp [lay, ih]

theorem length_flatMap_serName (ns : List Name) : (ns.flatMap serName).length = total ns := by
  induction ns with
  | nil => rfl
  | cons n ns ih => simp [total, serName, ih]; omega

theorem cstrAt_flatMap {ns : List Name} (n : Name) (hn : n ∈ ns) (hz : (0 : UInt8) ∉ n) :
    cstrAt (ns.flatMap serName) (total (ns.take (ns.idxOf n))) = some n := by
  have hlt := List.idxOf_lt_length_iff.2 hn
  have hsplit : ns = ns.take (ns.idxOf n) ++ n :: ns.drop (ns.idxOf n + 1) := by
    conv => lhs; rw [← List.take_append_drop (ns.idxOf n) ns]
    rw [List.drop_eq_getElem_cons hlt, List.getElem_idxOf]
  have himg : ns.flatMap serName =
      (ns.take (ns.idxOf n)).flatMap serName ++ (n ++ 0 :: (ns.drop (ns.idxOf n + 1)).flatMap serName) := by
    conv => lhs; rw [hsplit]
    simp [serName]
  unfold cstrAt
  rw [himg, List.drop_left' (length_flatMap_serName _)]
  simp only [List.mem_append, List.mem_cons, true_or, or_true, if_true]
  congr 1
  rw [List.takeWhile_append_of_pos]
  · simp
  · intro a ha
    simp only [bne_iff_ne, ne_eq]
    rintro rfl
    exact hz ha

end StringTable
end Dld
