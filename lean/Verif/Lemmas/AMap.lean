import Verif.Model.Bytes
/-! # Lemmas about association lists -/
namespace Dld.AMap
variable {κ ν : Type} [DecidableEq κ]

theorem get?_append (m m' : List (κ × ν)) (k : κ) :
    get? (m ++ m') k = (get? m k).or (get? m' k) := by
  induction m with
  | nil => simp [get?]
  | cons e m ih => obtain ⟨a, b⟩ := e; by_cases h : a = k <;> simp [get?, h, ih]

theorem get?_eq_none {m : List (κ × ν)} {k : κ} : get? m k = none ↔ k ∉ keys m := by
  induction m with
  | nil => simp [get?, keys]
  | cons e m ih =>
    obtain ⟨a, b⟩ := e
    by_cases h : a = k
    · simp [get?, h, keys]
    · simp only [get?, h, if_false, ih, keys, List.map_cons, List.mem_cons, not_or]
      exact ⟨fun h' => ⟨fun e => h e.symm, h'⟩, fun h' => h'.2⟩

theorem get?_isSome {m : List (κ × ν)} {k : κ} : (get? m k).isSome ↔ k ∈ keys m := by
  rw [← Decidable.not_iff_not, ← get?_eq_none]; simp

theorem exists_get? {m : List (κ × ν)} {k : κ} (h : k ∈ keys m) : ∃ v, get? m k = some v := by
  rw [← get?_isSome] at h; exact Option.isSome_iff_exists.1 h

theorem mem_keys_of_get? {m : List (κ × ν)} {k : κ} {v : ν} (h : get? m k = some v) : k ∈ keys m :=
  get?_isSome.1 (by simp [h])

theorem mem_of_get? {m : List (κ × ν)} {k : κ} {v : ν} (h : get? m k = some v) : (k, v) ∈ m := by
  induction m with
  | nil => simp [get?] at h
  | cons e m ih =>
    obtain ⟨a, b⟩ := e
    by_cases hk : a = k
    · simp [get?, hk] at h; simp [hk, h]
    · simp [get?, hk] at h; simp [ih h]

theorem get?_of_mem {m : List (κ × ν)} {k : κ} {v : ν} (hn : (keys m).Nodup) (h : (k, v) ∈ m) :
    get? m k = some v := by
  induction m with
  | nil => simp at h
  | cons e m ih =>
    obtain ⟨a, b⟩ := e
    simp only [keys, List.map_cons, List.nodup_cons] at hn
    rcases List.mem_cons.1 h with h | h
    · cases h; simp [get?]
    · have : a ≠ k := by
        rintro rfl
        exact hn.1 (List.mem_map_of_mem (f := (·.1)) h)
      simp [get?, this, ih hn.2 h]

theorem mem_iff_get? {m : List (κ × ν)} {k : κ} {v : ν} (hn : (keys m).Nodup) :
    (k, v) ∈ m ↔ get? m k = some v := ⟨get?_of_mem hn, mem_of_get?⟩

@[simp] theorem keys_modify (m : List (κ × ν)) (k : κ) (f : ν → ν) :
    keys (modify m k f) = keys m := by
  induction m with
  | nil => simp [modify]
  | cons e m ih =>
    obtain ⟨a, b⟩ := e
    by_cases h : a = k
    · simp [modify, h, keys]
    · simpa [modify, h, keys] using ih

@[simp] theorem length_modify (m : List (κ × ν)) (k : κ) (f : ν → ν) :
    (modify m k f).length = m.length := by
  have := congrArg List.length (keys_modify m k f)
  simpa [keys] using this

theorem get?_modify (m : List (κ × ν)) (k j : κ) (f : ν → ν) :
    get? (modify m k f) j = if k = j then (get? m j).map f else get? m j := by
  induction m with
  | nil => simp [modify, get?]
  | cons e m ih =>
    obtain ⟨a, b⟩ := e
    by_cases h : a = k
    · subst h
      by_cases hj : a = j <;> simp [modify, get?, hj]
    · by_cases hj : a = j
      · subst hj
        have h' : ¬ k = a := fun e => h e.symm
        simp [modify, get?, h, h']
      · simp [modify, get?, h, hj, ih]

theorem keys_insert (m : List (κ × ν)) (k : κ) (v : ν) :
    keys (insert m k v) = if k ∈ keys m then keys m else keys m ++ [k] := by
  unfold insert
  split
  · next h => simp [mem_keys_of_get? h]
  · next h => rw [if_neg (get?_eq_none.1 h)]; simp [keys]

theorem get?_insert (m : List (κ × ν)) (k j : κ) (v : ν) :
    get? (insert m k v) j = if k = j then some v else get? m j := by
  unfold insert
  split
  · next x h =>
    rw [get?_modify]
    by_cases hj : k = j
    · subst hj; simp [h]
    · simp [hj]
  · next h =>
    rw [get?_append]
    by_cases hj : k = j
    · subst hj; simp [h, get?]
    · simp [hj, get?]

theorem nodup_keys_insert {m : List (κ × ν)} (h : (keys m).Nodup) (k : κ) (v : ν) :
    (keys (insert m k v)).Nodup := by
  rw [keys_insert]
  split
  · exact h
  · next hk =>
    rw [List.nodup_append]
    refine ⟨h, by simp, ?_⟩
    intro a ha b hb e
    rw [List.mem_singleton] at hb
    exact hk (hb ▸ e ▸ ha)

theorem get?_map_value {ν' : Type} (m : List (κ × ν)) (f : ν → ν') (k : κ) :
    get? (m.map fun e => (e.1, f e.2)) k = (get? m k).map f := by
  induction m with
  | nil => simp [get?]
  | cons e m ih =>
    obtain ⟨a, b⟩ := e
    by_cases h : a = k <;> simp [get?, h, ih]

end Dld.AMap
