import Verif.Model.HashTables
import Verif.Spec.HashLookup
import Verif.Lemmas.Bytes
/-! # Lemmas about the hash tables -/
namespace Dld
open Spec

theorem length_flatMap_le (k : Nat) (xs : List Nat) : (xs.flatMap (le k)).length = k * xs.length := by
  induction xs with
  | nil => rfl
  | cons a xs ih => rw [List.flatMap_cons, List.length_append, ih, length_le, List.length_cons, Nat.mul_succ]; omega

/-- word `i` of a list of words -/
theorem field_flatMap_le {k : Nat} {xs : List Nat} {i x : Nat} (h : xs[i]? = some x) (hx : x < 256 ^ k)
    (rest : Bytes) : field (xs.flatMap (le k) ++ rest) (k * i) k = x := by
  induction xs generalizing i with
  | nil => simp at h
  | cons a xs ih =>
    cases i with
    | zero =>
      simp at h; subst h
      rw [List.flatMap_cons, List.append_assoc, Nat.mul_zero]; exact field_head _ hx
    | succ i =>
      simp at h
      rw [List.flatMap_cons, List.append_assoc, field_skip (m := k) _ (by simp) (by rw [Nat.mul_succ]; omega)]
      rw [show k * (i + 1) - k = k * i by rw [Nat.mul_succ]; omega]
      exact ih h

namespace HashTable

/-- `P` is the chain starting at `s` -/
def IsChain (c : List Nat) : Nat → List Nat → Prop
  | s, [] => s = 0
  | s, p :: ps => s = p ∧ p ≠ 0 ∧ ∃ n, c[p]? = some n ∧ IsChain c n ps

theorem IsChain.head_ne {c : List Nat} {s : Nat} {P : List Nat} (h : IsChain c s P) : P = [] ↔ s = 0 := by
  cases P with
  | nil => simpa [IsChain] using h
  | cons p ps => obtain ⟨rfl, h0, -⟩ := h; simp [h0]

theorem IsChain.chainEnd {c : List Nat} {s : Nat} {P : List Nat} (h : IsChain c s P) (hne : P ≠ [])
    {fuel : Nat} (hf : P.length ≤ fuel) : HashTable.chainEnd c fuel s = some (P.getLast hne) := by
  induction P generalizing s fuel with
  | nil => exact absurd rfl hne
  | cons p ps ih =>
    obtain ⟨rfl, h0, n, hn, hc⟩ := h
    cases fuel with
    | zero => simp at hf
    | succ fuel =>
      simp only [HashTable.chainEnd, hn]
      by_cases hps : ps = []
      · subst hps
        have : n = 0 := hc
        subst this
        simp
      · have hn0 : n ≠ 0 := fun e => hps (hc.head_ne.2 e)
        obtain ⟨m, rfl⟩ : ∃ m, n = m + 1 := ⟨n - 1, by omega⟩
        simp only
        rw [ih hc hps (by simp at hf; omega), List.getLast_cons hps]

theorem IsChain.set_of_not_mem {c : List Nat} {s e v : Nat} {P : List Nat} (h : IsChain c s P) (he : e ∉ P) :
    IsChain (c.set e v) s P := by
  induction P generalizing s with
  | nil => exact h
  | cons p ps ih =>
    obtain ⟨rfl, h0, n, hn, hc⟩ := h
    simp only [List.mem_cons, not_or] at he
    refine ⟨rfl, h0, n, ?_, ih hc he.2⟩
    rw [List.getElem?_set_ne he.1]; exact hn

theorem IsChain.extend {c : List Nat} {s k : Nat} {P : List Nat} (h : IsChain c s P) (hne : P ≠ [])
    (hnd : P.Nodup) (hk : k ≠ 0) (hck : c[k]? = some 0) (hkP : k ∉ P) :
    IsChain (c.set (P.getLast hne) k) s (P ++ [k]) := by
  induction P generalizing s with
  | nil => exact absurd rfl hne
  | cons p ps ih =>
    obtain ⟨rfl, h0, n, hn, hc⟩ := h
    simp only [List.mem_cons, not_or] at hkP
    by_cases hps : ps = []
    · subst hps
      refine ⟨rfl, h0, k, ?_, rfl, hk, 0, ?_, rfl⟩
      · obtain ⟨hlt, -⟩ := List.getElem?_eq_some_iff.1 hn
        simp [List.getElem?_set_self hlt]
      · simp only [List.getLast_singleton]
        rw [List.getElem?_set_ne (fun e => hkP.1 e.symm)]; exact hck
    · rw [List.nodup_cons] at hnd
      refine ⟨rfl, h0, n, ?_, ?_⟩
      · rw [List.getLast_cons hps, List.getElem?_set_ne]
        · exact hn
        · intro e
          exact hnd.1 (e ▸ List.getLast_mem hps)
      · rw [List.getLast_cons hps]
        exact ih hc hps hnd.2 hkP.2

/-- the symbols among the first `k` that belong to bucket `b`, index 0 left out -/
def members (hs : List UInt32) (nb b k : Nat) : List Nat :=
  (List.range k).filter fun i => i != 0 && (hs[i]?.getD 0).toNat % nb == b

theorem mem_members {hs : List UInt32} {nb b k i : Nat} :
    i ∈ members hs nb b k ↔ i < k ∧ i ≠ 0 ∧ (hs[i]?.getD 0).toNat % nb = b := by
  simp [members]

theorem members_succ (hs : List UInt32) (nb b k : Nat) :
    members hs nb b (k + 1) = members hs nb b k ++
      (if k ≠ 0 ∧ (hs[k]?.getD 0).toNat % nb = b then [k] else []) := by
  unfold members
  rw [List.range_succ, List.filter_append]
  congr 1
  by_cases h : k ≠ 0 ∧ (hs[k]?.getD 0).toNat % nb = b
  · rw [if_pos h]; simp [h.1, h.2]
  · rw [if_neg h, List.filter_eq_nil_iff]
    simpa using h

theorem members_length (hs : List UInt32) (nb b k : Nat) : (members hs nb b k).length ≤ k := by
  have := List.length_filter_le (fun i => i != 0 && (hs[i]?.getD 0).toNat % nb == b) (List.range k)
  simpa [members] using this

/-- state of the tables after `k` symbols -/
structure Inv (hs : List UInt32) (nb k : Nat) (st : List Nat × List Nat) : Prop where
  lenB : st.1.length = nb
  lenC : st.2.length = hs.length
  chain : ∀ b, b < nb → ∃ s, st.1[b]? = some s ∧ IsChain st.2 s (members hs nb b k)
  zero : ∀ i, k ≤ i → i < hs.length → st.2[i]? = some 0
  bound : ∀ v, v ∈ st.1 ∨ v ∈ st.2 → v = 0 ∨ v < k

theorem addOne_inv {hs : List UInt32} {nb k : Nat} {st : List Nat × List Nat} (hnb : 0 < nb)
    (hlen : hs.length < 2 ^ 32) (h : Inv hs nb k st) {x : UInt32} (hx : hs[k]? = some x) :
    ∃ st', addOne nb st k x = some st' ∧ Inv hs nb (k + 1) st' := by
  obtain ⟨B, C⟩ := st
  obtain ⟨hk, -⟩ := List.getElem?_eq_some_iff.1 hx
  have hu : u32 k = k := Nat.mod_eq_of_lt (by omega)
  have hb : x.toNat % nb < nb := Nat.mod_lt _ hnb
  obtain ⟨s, hs1, hs2⟩ := h.chain _ hb
  simp only at hs1 hs2
  have hlB : B.length = nb := h.lenB
  have hlC : C.length = hs.length := h.lenC
  unfold addOne
  simp only [hs1, hu]
  by_cases h0 : s = 0
  · subst h0
    have hnil := hs2.head_ne.2 rfl
    refine ⟨_, by simp; rfl, ?_⟩
    refine ⟨by simp [hlB], h.lenC, ?_, fun i hi => h.zero i (by omega), ?_⟩
    rotate_left
    · intro v hv
      rcases hv with hv | hv
      · rcases List.mem_or_eq_of_mem_set hv with h1 | h1
        · have := h.bound v (.inl h1); omega
        · omega
      · have := h.bound v (.inr hv); omega
    intro b hbn
    rw [members_succ]
    simp only [hx, Option.getD_some]
    by_cases hbb : x.toNat % nb = b
    · subst hbb
      refine ⟨k, by simp [List.getElem?_set_self (by omega : x.toNat % nb < B.length)], ?_⟩
      rw [hnil, List.nil_append]
      by_cases hk0 : k = 0
      · simp [hk0, IsChain]
      · simp only [hk0, ne_eq, not_false_eq_true, true_and, if_true]
        exact ⟨rfl, hk0, 0, h.zero k (Nat.le_refl _) hk, rfl⟩
    · obtain ⟨s', h1, h2⟩ := h.chain b hbn
      refine ⟨s', ?_, ?_⟩
      · rw [List.getElem?_set_ne hbb]; exact h1
      · simpa [hbb] using h2
  · simp only [h0, if_false]
    have hne : members hs nb (x.toNat % nb) k ≠ [] := fun e => h0 (hs2.head_ne.1 e)
    rw [hs2.chainEnd hne (by have := members_length hs nb (x.toNat % nb) k; omega)]
    refine ⟨_, rfl, ?_⟩
    have hk0 : k ≠ 0 := by
      rintro rfl
      exact hne (by simp [members])
    have hlast := List.getLast_mem hne
    refine ⟨h.lenB, by simp [hlC], ?_, ?_, ?_⟩
    rotate_left 2
    · intro v hv
      rcases hv with hv | hv
      · have := h.bound v (.inl hv); omega
      · rcases List.mem_or_eq_of_mem_set hv with h1 | h1
        · have := h.bound v (.inr h1); omega
        · omega
    · intro b hbn
      rw [members_succ]
      simp only [hx, Option.getD_some, ne_eq, hk0, not_false_eq_true, true_and]
      by_cases hbb : x.toNat % nb = b
      · subst hbb
        refine ⟨s, hs1, ?_⟩
        simp only [if_true]
        refine hs2.extend hne ?_ hk0 (h.zero k (Nat.le_refl _) hk) ?_
        · exact List.Nodup.sublist List.filter_sublist List.nodup_range
        · intro hm; have := (mem_members.1 hm).1; omega
      · obtain ⟨s', h1, h2⟩ := h.chain b hbn
        refine ⟨s', h1, ?_⟩
        simp only [hbb, if_false, List.append_nil]
        refine h2.set_of_not_mem ?_
        intro hm
        have h3 := (mem_members.1 hm).2.2
        have h4 := (mem_members.1 hlast).2.2
        exact hbb (h4.symm.trans h3)
    · intro i hi hin
      simp only
      rw [List.getElem?_set_ne]
      · exact h.zero i (by omega) hin
      · have := (mem_members.1 hlast).1; omega

theorem addLoop_inv {hs pre suf : List UInt32} {nb : Nat} {st : List Nat × List Nat} (hnb : 0 < nb)
    (hlen : hs.length < 2 ^ 32) (he : hs = pre ++ suf) (h : Inv hs nb pre.length st) :
    ∃ st', addLoop nb st pre.length suf = some st' ∧ Inv hs nb hs.length st' := by
  induction suf generalizing pre st with
  | nil => simp at he; subst he; exact ⟨st, rfl, h⟩
  | cons x suf ih =>
    obtain ⟨st', h1, h2⟩ := addOne_inv hnb hlen h (x := x) (by rw [he]; simp)
    obtain ⟨st'', h3, h4⟩ := ih (pre := pre ++ [x]) (st := st') (by simp [he]) (by simpa using h2)
    refine ⟨st'', ?_, h4⟩
    simp only [addLoop, h1]
    simpa using h3

/-- building never fails and yields one chain per bucket -/
theorem addSymbols_spec (hs : List UInt32) (hlen : hs.length < 2 ^ 32) :
    ∃ st, addSymbols hs = some (mk' st.1 st.2) ∧ Inv hs (hs.length / 2 + 1) hs.length st := by
  have hu : u32 hs.length = hs.length := Nat.mod_eq_of_lt (by omega)
  obtain ⟨st, h1, h2⟩ := addLoop_inv (hs := hs) (pre := []) (suf := hs) (nb := hs.length / 2 + 1)
    (st := (List.replicate (hs.length / 2 + 1) 0, List.replicate hs.length 0)) (by omega) hlen rfl
    { lenB := by simp, lenC := by simp,
      chain := fun b hb => ⟨0, by simp only [List.getElem?_replicate]; rw [if_pos hb], rfl⟩,
      zero := fun i _ hi => by simp only [List.getElem?_replicate]; rw [if_pos hi],
      bound := fun v hv => by
        left
        rcases hv with hv | hv <;> exact (List.mem_replicate.1 hv).2 }
  refine ⟨st, ?_, h2⟩
  unfold addSymbols
  simp only [hu]
  have h1' : addLoop (hs.length / 2 + 1)
    (List.replicate (hs.length / 2 + 1) 0, List.replicate hs.length 0) 0 hs = some st := h1
  rw [h1']
  rfl

theorem IsChain.mem_lt {c : List Nat} {s : Nat} {P : List Nat} (h : IsChain c s P) : ∀ p ∈ P, p < c.length := by
  induction P generalizing s with
  | nil => simp
  | cons p ps ih =>
    obtain ⟨rfl, h0, n, hn, hc⟩ := h
    intro q hq
    rcases List.mem_cons.1 hq with rfl | hq
    · exact (List.getElem?_eq_some_iff.1 hn).1
    · exact ih hc q hq

theorem IsChain.walk {c : List Nat} {s : Nat} {P : List Nat} (h : IsChain c s P) {f : Nat → Nat}
    (hf : ∀ i x, c[i]? = some x → i ∈ P → f i = x) {fuel : Nat} (hl : P.length ≤ fuel) :
    sysvWalk f fuel s = some P := by
  induction P generalizing s fuel with
  | nil => have : s = 0 := h; subst this; cases fuel <;> simp [sysvWalk]
  | cons p ps ih =>
    obtain ⟨rfl, h0, n, hn, hc⟩ := h
    cases fuel with
    | zero => simp at hl
    | succ fuel =>
      rw [sysvWalk, if_neg h0, hf s n hn (by simp),
        ih hc (fun i x hx hi => hf i x hx (by simp [hi])) (by simp at hl; omega)]
      rfl

end HashTable

namespace GnuHashTable

theorem nextPow2_pow (n : Nat) : ∃ k, nextPow2 n = 2 ^ k := by
  unfold nextPow2
  split
  · exact ⟨0, rfl⟩
  · exact ⟨_, rfl⟩

theorem nextPow2_le {n m : Nat} (h : n ≤ 2 ^ m) : nextPow2 n ≤ 2 ^ m := by
  unfold nextPow2
  split
  · exact Nat.one_le_two_pow
  · next h1 =>
    apply Nat.pow_le_pow_right (by decide)
    have : Nat.log2 (n - 1) < m := (Nat.log2_lt (by omega)).2 (by omega)
    omega

/-! ### bloom filter -/

/-- the two bits of a hash are set in a filter -/
def Sets (bloom : List Nat) (h : UInt32) : Prop :=
  ∃ w, bloom[h.toNat / 64 % bloom.length]? = some w ∧ w.testBit (h.toNat % 64) = true ∧
    w.testBit (h.toNat / 2 ^ 26 % 64) = true

theorem length_calculateBloom (b : List Nat) (h : UInt32) (e s : Nat) :
    (calculateBloom b h e s).length = b.length := by simp [calculateBloom]

theorem getElem?_calculateBloom {b : List Nat} {h : UInt32} (hb : b.length < 2 ^ 32) {i w : Nat}
    (hi : b[i]? = some w) :
    (calculateBloom b h 64 26)[i]? = some (if h.toNat / 64 % b.length = i
      then (w ||| 1 <<< (h.toNat % 64)) ||| 1 <<< (h.toNat / 2 ^ 26 % 64) else w) := by
  have hu : u32 b.length = b.length := Nat.mod_eq_of_lt hb
  simp only [calculateBloom, hu, List.getElem?_modify, Nat.shiftRight_eq_div_pow]
  by_cases hx : h.toNat / 64 % b.length = i <;> simp [hi, hx]

theorem calculateBloom_sets {b : List Nat} (h : UInt32) (hb : b.length < 2 ^ 32) (h0 : 0 < b.length) :
    Sets (calculateBloom b h 64 26) h := by
  have hi : h.toNat / 64 % b.length < b.length := Nat.mod_lt _ h0
  refine ⟨(b[h.toNat / 64 % b.length] ||| 1 <<< (h.toNat % 64)) ||| 1 <<< (h.toNat / 2 ^ 26 % 64), ?_, ?_, ?_⟩
  · rw [length_calculateBloom, getElem?_calculateBloom hb (List.getElem?_eq_getElem hi)]
    simp
  · simp [Nat.testBit_or]
  · simp [Nat.testBit_or]

theorem calculateBloom_mono {b : List Nat} {h x : UInt32} (hb : b.length < 2 ^ 32)
    (hs : Sets b x) : Sets (calculateBloom b h 64 26) x := by
  obtain ⟨w, h1, h2, h3⟩ := hs
  refine ⟨if h.toNat / 64 % b.length = x.toNat / 64 % b.length
      then (w ||| 1 <<< (h.toNat % 64)) ||| 1 <<< (h.toNat / 2 ^ 26 % 64) else w, ?_, ?_, ?_⟩
  · rw [length_calculateBloom]; exact getElem?_calculateBloom hb h1
  · split <;> simp [Nat.testBit_or, h2]
  · split <;> simp [Nat.testBit_or, h3]

theorem calculateBloom_lt {b : List Nat} {h : UInt32} (hb : b.length < 2 ^ 32)
    (hw : ∀ w ∈ b, w < 2 ^ 64) : ∀ w ∈ calculateBloom b h 64 26, w < 2 ^ 64 := by
  intro w hmem
  obtain ⟨i, hi, he⟩ := List.getElem_of_mem hmem
  rw [length_calculateBloom] at hi
  have h1 := getElem?_calculateBloom (h := h) hb (List.getElem?_eq_getElem hi)
  rw [List.getElem?_eq_getElem (by rw [length_calculateBloom]; exact hi), he] at h1
  have hlt := hw _ (List.getElem_mem hi)
  simp only [Option.some.injEq] at h1
  have hbit : ∀ k, k < 64 → 1 <<< k < 2 ^ 64 := by
    intro k hk
    rw [Nat.shiftLeft_eq, Nat.one_mul]
    exact Nat.pow_lt_pow_right (by decide) hk
  rw [h1]
  split
  · exact Nat.or_lt_two_pow (Nat.or_lt_two_pow hlt (hbit _ (Nat.mod_lt _ (by decide)))) (hbit _ (Nat.mod_lt _ (by decide)))
  · exact hlt

theorem foldl_bloom (l : List UInt32) : ∀ (b : List Nat), b.length < 2 ^ 32 → 0 < b.length →
    (∀ w ∈ b, w < 2 ^ 64) →
    let r := l.foldl (fun b h => calculateBloom b h 64 26) b
    r.length = b.length ∧ (∀ w ∈ r, w < 2 ^ 64) ∧ (∀ x, Sets b x → Sets r x) ∧ ∀ x ∈ l, Sets r x := by
  induction l with
  | nil => intro b _ _ hw; exact ⟨rfl, hw, fun _ h => h, by simp⟩
  | cons a l ih =>
    intro b hb h0 hw
    have hl := length_calculateBloom b a 64 26
    obtain ⟨h1, h2, h3, h4⟩ := ih (calculateBloom b a 64 26) (by omega) (by omega) (calculateBloom_lt hb hw)
    refine ⟨by rw [List.foldl_cons, h1, hl], h2, fun x hx => h3 x (calculateBloom_mono hb hx), ?_⟩
    intro x hx
    rcases List.mem_cons.1 hx with rfl | hx
    · exact h3 _ (calculateBloom_sets _ hb h0)
    · exact h4 x hx

/-! ### buckets and chains -/

theorem length_fillBuckets (nb : Nat) (l : List UInt32) :
    ∀ (B : List Nat) (i : Nat), (fillBuckets nb B i l).length = B.length := by
  induction l with
  | nil => intro B i; rfl
  | cons h l ih => intro B i; rw [fillBuckets, ih]; split <;> simp

theorem fillBuckets_keep (nb : Nat) (l : List UInt32) :
    ∀ (B : List Nat) (i b v : Nat), B[b]? = some v → v ≠ 0 → (fillBuckets nb B i l)[b]? = some v := by
  induction l with
  | nil => intro B i b v h _; exact h
  | cons h l ih =>
    intro B i b v hv h0
    rw [fillBuckets]
    refine ih _ _ _ _ ?_ h0
    split
    · next hz =>
      rw [List.getElem?_set_ne]
      · exact hv
      · rintro rfl; rw [hv] at hz; exact h0 (by simpa using hz)
    · exact hv

/-- Each bucket holds the number of the first symbol that hashes to it, or keeps its old value. -/
theorem fillBuckets_spec (nb : Nat) (l : List UInt32) :
    ∀ (B : List Nat) (i : Nat), i + l.length < 2 ^ 32 → ∀ b, B[b]? = some 0 →
      ((∀ x ∈ l, x.toNat % nb ≠ b) ∧ (fillBuckets nb B i l)[b]? = some 0) ∨
      ∃ l1 x l2, l = l1 ++ x :: l2 ∧ x.toNat % nb = b ∧ (∀ y ∈ l1, y.toNat % nb ≠ b) ∧
        (fillBuckets nb B i l)[b]? = some (i + l1.length + 1) := by
  induction l with
  | nil => intro B i _ b hb; exact .inl ⟨by simp, hb⟩
  | cons h l ih =>
    intro B i hi b hb
    simp at hi
    have hu : u32 (i + 1) = i + 1 := Nat.mod_eq_of_lt (by omega)
    rw [fillBuckets]
    simp only [hu]
    by_cases hx : h.toNat % nb = b
    · right
      refine ⟨[], h, l, rfl, hx, by simp, ?_⟩
      rw [hx, if_pos hb]
      refine fillBuckets_keep nb l _ _ _ _ ?_ (by omega)
      obtain ⟨hlt, -⟩ := List.getElem?_eq_some_iff.1 hb
      simp [List.getElem?_set_self hlt]
    · have hb' : (if B[h.toNat % nb]? = some 0 then B.set (h.toNat % nb) (i + 1) else B)[b]? = some 0 := by
        split
        · rw [List.getElem?_set_ne hx]; exact hb
        · exact hb
      rcases ih _ (i + 1) (by omega) b hb' with ⟨h1, h2⟩ | ⟨l1, x, l2, rfl, h2, h3, h4⟩
      · left; exact ⟨fun y hy => (List.mem_cons.1 hy).elim (fun e => e ▸ hx) (h1 y), h2⟩
      · right
        refine ⟨h :: l1, x, l2, rfl, h2, ?_, ?_⟩
        · exact fun y hy => (List.mem_cons.1 hy).elim (fun e => e ▸ hx) (h3 y)
        · rw [h4]; simp; omega

theorem fillBuckets_bound (nb : Nat) (l : List UInt32) :
    ∀ (B : List Nat) (i : Nat), i + l.length < 2 ^ 32 → (∀ v ∈ B, v ≤ i) →
      ∀ v ∈ fillBuckets nb B i l, v ≤ i + l.length := by
  induction l with
  | nil => intro B i _ h; simpa [fillBuckets] using h
  | cons h l ih =>
    intro B i hi hB v hv
    simp at hi
    rw [fillBuckets] at hv
    have hu : u32 (i + 1) = i + 1 := Nat.mod_eq_of_lt (by omega)
    have := ih _ (i + 1) (by omega) (by
      intro v hv
      split at hv
      · rcases List.mem_or_eq_of_mem_set hv with h1 | h1
        · have := hB v h1; omega
        · omega
      · have := hB v hv; omega) v hv
    simp; omega

theorem length_fillChains (nb : Nat) (l : List UInt32) : (fillChains nb l).length = l.length := by
  induction l with
  | nil => rfl
  | cons h l ih =>
    cases l with
    | nil => rfl
    | cons h' l => simpa [fillChains] using ih

/-- entry `i`: the hash with the low bit telling whether the chain ends here -/
theorem getElem?_fillChains (nb : Nat) (l : List UInt32) : ∀ (i : Nat) (h : UInt32), l[i]? = some h →
    (fillChains nb l)[i]? = some (match l[i + 1]? with
      | none => h ||| 1
      | some h' => if h.toNat % nb ≠ h'.toNat % nb then h ||| 1 else h &&& ~~~1) := by
  induction l with
  | nil => intro i h hi; simp at hi
  | cons a l ih =>
    intro i h hi
    cases l with
    | nil =>
      cases i with
      | zero => simp at hi; subst hi; rfl
      | succ i => simp at hi
    | cons b l =>
      cases i with
      | zero => simp at hi; subst hi; rfl
      | succ i =>
        simp only [fillChains, List.getElem?_cons_succ] at hi ⊢
        rw [ih i h hi]
        simp

theorem or_one (h : UInt32) : (h ||| 1).toNat % 2 = 1 ∧ (h ||| 1).toNat / 2 = h.toNat / 2 := by
  rw [UInt32.toNat_or]
  have e : (1 : UInt32).toNat = 1 := rfl
  rw [e]
  constructor
  · rw [Nat.or_mod_two_eq_one]; simp
  · rw [Nat.or_div_two]; simp

theorem and_not_one (h : UInt32) :
    (h &&& ~~~1).toNat % 2 = 0 ∧ (h &&& ~~~1).toNat / 2 = h.toNat / 2 := by
  rw [UInt32.toNat_and]
  have e : (~~~1 : UInt32).toNat = 4294967294 := rfl
  rw [e]
  constructor
  · have : (h.toNat &&& 4294967294) % 2 ≠ 1 := by
      rw [Ne, Nat.and_mod_two_eq_one]; simp
    omega
  · rw [Nat.and_div_two]
    have h2 : (4294967294 / 2) = 2 ^ 31 - 1 := rfl
    rw [h2, Nat.and_two_pow_sub_one_eq_mod]
    apply Nat.mod_eq_of_lt
    have := h.toNat_lt
    omega

end GnuHashTable
end Dld
