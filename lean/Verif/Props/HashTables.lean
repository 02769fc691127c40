import Verif.Lemmas.HashTables
import Verif.Props.Symbols
/-! # Hash tables (C16-C19) -/
namespace Dld
open Spec

/-! ## SysV -/

namespace HashTable

theorem ser_nb {t : HashTable} (h : t.nbuckets < 2 ^ 32) : field (serHashTable t) 0 4 = t.nbuckets := by
  unfold serHashTable
  rw [List.append_assoc]
  exact field_head _ h

theorem ser_nc {t : HashTable} (h : t.nchains < 2 ^ 32) : field (serHashTable t) 4 4 = t.nchains := by
  unfold serHashTable
  rw [List.append_assoc, field_skip (m := 4) _ (by simp) (by omega)]
  exact field_head _ h

theorem ser_word {t : HashTable} {i x : Nat} (h : (t.buckets ++ t.chains)[i]? = some x) (hx : x < 2 ^ 32) :
    field (serHashTable t) (8 + 4 * i) 4 = x := by
  unfold serHashTable
  rw [field_skip (m := 8) _ (by simp) (by omega), Nat.add_sub_cancel_left]
  have := field_flatMap_le (k := 4) h hx []
  simpa using this

theorem length_ser (t : HashTable) :
    (serHashTable t).length = 8 + 4 * (t.buckets.length + t.chains.length) := by
  unfold serHashTable
  rw [List.length_append, length_flatMap_le]; simp

end HashTable

open HashTable in
/-- **C16** For every list of symbols (fewer than 2^32) building the SysV table succeeds, and the gABI
lookup run on the emitted bytes for any hash terminates after visiting exactly the symbols of that
bucket - every symbol except number 0 whose hash has the same remainder - each once and in symbol
order. In particular a symbol is found through its own hash. -/
theorem C16_sysv_lookup (hs : List UInt32) (hlen : hs.length < 2 ^ 32) :
    ∃ t, addSymbols hs = some t ∧
      (∀ h : Nat, ∃ L, sysvVisited (serHashTable t) h = some L ∧ L.Pairwise (· < ·) ∧
        ∀ i, i ∈ L ↔ i ≠ 0 ∧ ∃ x, hs[i]? = some x ∧
          x.toNat % field (serHashTable t) 0 4 = h % field (serHashTable t) 0 4) ∧
      ∀ i x, i ≠ 0 → hs[i]? = some x → ∃ L, sysvVisited (serHashTable t) x.toNat = some L ∧ i ∈ L := by
  obtain ⟨⟨B, C⟩, h1, h2⟩ := addSymbols_spec hs hlen
  have hB : B.length = hs.length / 2 + 1 := h2.lenB
  have hC : C.length = hs.length := h2.lenC
  have hnb : (mk' B C).nbuckets = hs.length / 2 + 1 := by
    show u32 B.length = _
    rw [hB]; exact Nat.mod_eq_of_lt (by omega)
  have hnc : (mk' B C).nchains = hs.length := by
    show u32 C.length = _
    rw [hC]; exact Nat.mod_eq_of_lt (by omega)
  have fnb : field (serHashTable (mk' B C)) 0 4 = hs.length / 2 + 1 := by rw [ser_nb (by omega), hnb]
  have fnc : field (serHashTable (mk' B C)) 4 4 = hs.length := by rw [ser_nc (by omega), hnc]
  have main : ∀ h : Nat, sysvVisited (serHashTable (mk' B C)) h =
      some (members hs (hs.length / 2 + 1) (h % (hs.length / 2 + 1)) hs.length) := by
    intro h
    have hb : h % (hs.length / 2 + 1) < hs.length / 2 + 1 := Nat.mod_lt _ (by omega)
    obtain ⟨s, hs1, hs2⟩ := h2.chain _ hb
    have hslt : s < 2 ^ 32 := by
      by_cases h0 : s = 0
      · omega
      · cases hm : members hs (hs.length / 2 + 1) (h % (hs.length / 2 + 1)) hs.length with
        | nil => rw [hm] at hs2; exact absurd hs2 h0
        | cons p ps =>
          rw [hm] at hs2
          have := hs2.mem_lt p (by simp)
          have e := hs2.1
          simp only at this; omega
    unfold sysvVisited
    simp only [fnb, fnc]
    rw [ser_word (x := s) (by
      show (B ++ C)[_]? = _
      rw [List.getElem?_append_left (by omega)]; exact hs1) hslt]
    refine hs2.walk ?_ (members_length _ _ _ _)
    intro i x hx hi
    have hx' : C[i]? = some x := hx
    have e : 8 + 4 * (hs.length / 2 + 1) + 4 * i = 8 + 4 * (hs.length / 2 + 1 + i) := by omega
    rw [e]
    refine ser_word (t := mk' B C) ?_ ?_
    · show (B ++ C)[_]? = _
      rw [List.getElem?_append_right (by omega), show hs.length / 2 + 1 + i - B.length = i by omega]
      exact hx'
    · -- the successor is 0 or a member
      have gen : ∀ (P : List Nat) (s : Nat), IsChain C s P → ∀ i ∈ P, ∀ x, C[i]? = some x → x < 2 ^ 32 := by
        intro P
        induction P with
        | nil => intro s _ i hi; simp at hi
        | cons p ps ih =>
          rintro s ⟨rfl, h0, n, hn, hc⟩ i hi x hx
          rcases List.mem_cons.1 hi with rfl | hi
          · rw [hn] at hx; cases hx
            cases ps with
            | nil => have : n = 0 := hc; omega
            | cons q qs =>
              have := hc.mem_lt q (by simp)
              have e := hc.1
              omega
          · exact ih n hc i hi x hx
      exact gen _ s hs2 i hi x hx'
  have hmem : ∀ h i, i ∈ members hs (hs.length / 2 + 1) (h % (hs.length / 2 + 1)) hs.length ↔
      i ≠ 0 ∧ ∃ x, hs[i]? = some x ∧ x.toNat % (hs.length / 2 + 1) = h % (hs.length / 2 + 1) := by
    intro h i
    rw [mem_members]
    constructor
    · rintro ⟨hlt, h0, he⟩
      refine ⟨h0, hs[i], List.getElem?_eq_getElem hlt, ?_⟩
      simpa [List.getElem?_eq_getElem hlt] using he
    · rintro ⟨h0, x, hx, he⟩
      obtain ⟨hlt, -⟩ := List.getElem?_eq_some_iff.1 hx
      exact ⟨hlt, h0, by simpa [hx] using he⟩
  refine ⟨_, h1, ?_, ?_⟩
  · intro h
    refine ⟨_, main h, ?_, ?_⟩
    · exact List.Pairwise.sublist List.filter_sublist List.pairwise_lt_range
    · intro i; rw [hmem, fnb]
  · intro i x h0 hx
    refine ⟨_, main _, ?_⟩
    rw [hmem]; exact ⟨h0, x, hx, rfl⟩

example : (HashTable.addSymbols [0, 7, 9, 7, 4]).map (fun t => sysvVisited (serHashTable t) 7) =
    some (some [1, 3, 4]) := by decide

/-! ## GNU -/

namespace GnuHashTable

/-- the table built from a null symbol and `rest` -/
structure Built (rest : List UInt32) (t : GnuHashTable) : Prop where
  nb : t.nbuckets = (rest.length + 1) / 8 + 1
  buckets : t.buckets = fillBuckets t.nbuckets (List.replicate t.nbuckets 0) 0 rest
  off : t.symOffset = 1
  shift : t.bloomShift = 26
  bsize : t.bloomSize = t.bloom.length
  bpow : ∃ k, t.bloomSize = 2 ^ k
  bbound : t.bloomSize < 2 ^ 32
  bword : ∀ w ∈ t.bloom, w < 2 ^ 64
  bset : ∀ x ∈ rest, Sets t.bloom x
  chains : t.chains = fillChains t.nbuckets rest

theorem addSymbols_built (z : UInt32) (rest : List UInt32) (hlen : rest.length < 2 ^ 28) :
    ∃ t, addSymbols (z :: rest) = some t ∧ Built rest t := by
  have hu : u32 (rest.length + 1) = rest.length + 1 := Nat.mod_eq_of_lt (by omega)
  refine ⟨_, rfl, ?_⟩
  have hb : nextPow2 (rest.length * 12 / 64) ≤ 2 ^ 28 := nextPow2_le (by omega)
  have hp : 0 < nextPow2 (rest.length * 12 / 64) := by
    obtain ⟨k, hk⟩ := nextPow2_pow (rest.length * 12 / 64)
    rw [hk]; exact Nat.pow_pos (by decide)
  have hbits : (u32 (rest.length + 1) - 1) * 12 / 64 = rest.length * 12 / 64 := by rw [hu]; simp
  obtain ⟨h1, h2, -, h4⟩ := foldl_bloom rest (List.replicate (nextPow2 (rest.length * 12 / 64)) 0)
    (by simp; omega) (by simpa using hp) (by
      intro w hw
      rw [List.mem_replicate] at hw; omega)
  constructor
  · simp [hu]
  · simp [hu]
  · rfl
  · rfl
  · simp only [List.length_cons, hbits]; rw [h1]; simp
  · simp only [List.length_cons, hbits]; exact nextPow2_pow _
  · simp only [List.length_cons, hbits]; omega
  · simp only [List.length_cons, hbits]; exact h2
  · simp only [List.length_cons, hbits]; exact h4
  · simp [hu]

theorem ser_eq (t : GnuHashTable) : serGnuHashTable t =
    le 4 t.nbuckets ++ (le 4 t.symOffset ++ (le 4 t.bloomSize ++ (le 4 t.bloomShift ++
      (t.bloom.flatMap (le 8) ++ (t.buckets.flatMap (le 4) ++ ((t.chains.map (·.toNat)).flatMap (le 4) ++ [])))))) := by
  simp [serGnuHashTable, List.flatMap_map]

theorem length_ser (t : GnuHashTable) : (serGnuHashTable t).length = t.size := by
  rw [ser_eq]
  simp only [List.length_append, length_le, length_flatMap_le, List.length_map, size, List.length_nil]
  omega

theorem ser_h0 {t : GnuHashTable} (h : t.nbuckets < 2 ^ 32) : field (serGnuHashTable t) 0 4 = t.nbuckets := by
  rw [ser_eq]; exact field_head _ h

theorem ser_h1 {t : GnuHashTable} (h : t.symOffset < 2 ^ 32) : field (serGnuHashTable t) 4 4 = t.symOffset := by
  rw [ser_eq, field_skip (m := 4) _ (by simp) (by omega)]; exact field_head _ h

theorem ser_h2 {t : GnuHashTable} (h : t.bloomSize < 2 ^ 32) : field (serGnuHashTable t) 8 4 = t.bloomSize := by
  rw [ser_eq, field_skip (m := 4) _ (by simp) (by omega), field_skip (m := 4) _ (by simp) (by omega)]
  exact field_head _ h

theorem ser_h3 {t : GnuHashTable} (h : t.bloomShift < 2 ^ 32) : field (serGnuHashTable t) 12 4 = t.bloomShift := by
  rw [ser_eq, field_skip (m := 4) _ (by simp) (by omega), field_skip (m := 4) _ (by simp) (by omega),
    field_skip (m := 4) _ (by simp) (by omega)]
  exact field_head _ h

theorem ser_skip (t : GnuHashTable) (off k : Nat) : field (serGnuHashTable t) (16 + off) k =
    field (t.bloom.flatMap (le 8) ++ (t.buckets.flatMap (le 4) ++
      ((t.chains.map (·.toNat)).flatMap (le 4) ++ []))) off k := by
  rw [ser_eq, field_skip (m := 4) _ (by simp) (by omega), field_skip (m := 4) _ (by simp) (by omega),
    field_skip (m := 4) _ (by simp) (by omega), field_skip (m := 4) _ (by simp) (by omega)]
  congr 1; omega

theorem ser_bloom {t : GnuHashTable} {i w : Nat} (h : t.bloom[i]? = some w) (hw : w < 2 ^ 64) :
    field (serGnuHashTable t) (16 + 8 * i) 8 = w := by
  rw [ser_skip]; exact field_flatMap_le h hw _

theorem ser_bucket {t : GnuHashTable} {i w : Nat} (h : t.buckets[i]? = some w) (hw : w < 2 ^ 32) :
    field (serGnuHashTable t) (16 + 8 * t.bloom.length + 4 * i) 4 = w := by
  rw [Nat.add_assoc, ser_skip, field_skip (m := 8 * t.bloom.length) _ (length_flatMap_le _ _) (by omega),
    Nat.add_sub_cancel_left]
  exact field_flatMap_le h hw _

theorem ser_chain {t : GnuHashTable} {i : Nat} {w : UInt32} (h : t.chains[i]? = some w) :
    field (serGnuHashTable t) (16 + 8 * t.bloom.length + 4 * t.buckets.length + 4 * i) 4 = w.toNat := by
  rw [Nat.add_assoc, Nat.add_assoc, ser_skip,
    field_skip (m := 8 * t.bloom.length) _ (length_flatMap_le _ _) (by omega),
    Nat.add_sub_cancel_left, field_skip (m := 4 * t.buckets.length) _ (length_flatMap_le _ _) (by omega),
    Nat.add_sub_cancel_left]
  exact field_flatMap_le (by simp [h]) (by have := w.toNat_lt; omega) _

theorem bloomTest_of_sets {t : GnuHashTable} {rest : List UInt32} (hB : Built rest t) {x : UInt32}
    (hx : x ∈ rest) : gnuBloomTest (serGnuHashTable t) x.toNat = true := by
  obtain ⟨w, h1, h2, h3⟩ := hB.bset x hx
  obtain ⟨k, hk⟩ := hB.bpow
  unfold gnuBloomTest
  simp only [ser_h2 hB.bbound, ser_h3 (t := t) (by rw [hB.shift]; omega)]
  rw [hk, Nat.and_two_pow_sub_one_eq_mod, ← hk, hB.bsize, ser_bloom h1 (hB.bword w (List.mem_of_getElem? h1))]
  rw [hB.shift, Nat.shiftRight_eq_div_pow]
  simp [h2, h3]

/-- a walk that meets an end mark terminates and collects every match on its way -/
theorem walk_some (f : Nat → Nat) (h : Nat) : ∀ (d p fuel : Nat), f (p + d) % 2 = 1 → d < fuel →
    ∃ L, gnuWalk f h fuel p = some L ∧ (∀ q ∈ L, f q / 2 = h / 2 ∧ p ≤ q ∧ q ≤ p + d) ∧
      ∀ q, p ≤ q → (∀ r, p ≤ r → r < q → f r % 2 = 0) → f q / 2 = h / 2 → q ∈ L := by
  intro d
  induction d with
  | zero =>
    intro p fuel hd hf
    obtain ⟨fuel, rfl⟩ : ∃ n, fuel = n + 1 := ⟨fuel - 1, by omega⟩
    simp only [Nat.add_zero] at hd
    simp only [gnuWalk, hd, if_true, Option.map_some]
    refine ⟨_, rfl, ?_, ?_⟩
    · intro q hq; split at hq
      · simp at hq; subst hq; exact ⟨by assumption, by omega, by omega⟩
      · simp at hq
    · intro q hpq hr hq
      have : q = p := by
        by_cases he : q = p
        · exact he
        · have := hr p (by omega) (by omega); omega
      subst this; simp [hq]
  | succ d ih =>
    intro p fuel hd hf
    obtain ⟨fuel, rfl⟩ : ∃ n, fuel = n + 1 := ⟨fuel - 1, by omega⟩
    by_cases hodd : f p % 2 = 1
    · simp only [gnuWalk, hodd, if_true, Option.map_some]
      refine ⟨_, rfl, ?_, ?_⟩
      · intro q hq; split at hq
        · simp at hq; subst hq; exact ⟨by assumption, by omega, by omega⟩
        · simp at hq
      · intro q hpq hr hq
        have : q = p := by
          by_cases he : q = p
          · exact he
          · have := hr p (by omega) (by omega); omega
        subst this; simp [hq]
    · obtain ⟨L, h1, h2, h3⟩ := ih (p + 1) fuel (by rw [← hd]; congr 2; omega) (by omega)
      simp only [gnuWalk, hodd, if_false, h1, Option.map_some]
      refine ⟨_, rfl, ?_, ?_⟩
      · intro q hq
        split at hq
        · rcases List.mem_cons.1 hq with rfl | hq
          · exact ⟨by assumption, by omega, by omega⟩
          · have := h2 q hq; omega
        · have := h2 q hq; omega
      · intro q hpq hr hq
        by_cases he : q = p
        · subst he; simp [hq]
        · have : q ∈ L := h3 q (by omega) (fun r h4 h5 => hr r (by omega) h5) hq
          split <;> simp [this]

end GnuHashTable

open GnuHashTable in
/-- **C18** The bloom filter test the loader performs passes for every dynamic symbol (all but
number 0), for every list of symbols. -/
theorem C18_bloom_no_false_negatives (z : UInt32) (rest : List UInt32) (hlen : rest.length < 2 ^ 28) :
    ∃ t, addSymbols (z :: rest) = some t ∧
      ∀ x ∈ rest, gnuBloomTest (serGnuHashTable t) x.toNat = true := by
  obtain ⟨t, h1, h2⟩ := addSymbols_built z rest hlen
  exact ⟨t, h1, fun x hx => bloomTest_of_sets h2 hx⟩

example : (GnuHashTable.addSymbols [0, 0xdeadbeef, 0x12345678]).map (fun t =>
    (gnuBloomTest (serGnuHashTable t) 0xdeadbeef, gnuBloomTest (serGnuHashTable t) 0x11111111)) =
    some (true, false) := by decide

/-- dynamic symbols `a` .. `g` -/
def exDyn : List Add := [b!"a", b!"b", b!"c", b!"d", b!"e", b!"f", b!"g"].map fun n =>
  { sym := { st_name := n.head!.toNat, st_info := 0x12 }, hash := elfHash n, gnuHash := elfGnuHash n,
    ref := ⟨b!"a.o", none⟩ }

/-- **C17** is violated: with the seven dynamic symbols `a` .. `g` (two buckets) the loader does not
find `c`, which is symbol 3. -/
theorem C17_gnu_lookup_violated :
    ∃ t g, (SymbolTable.new true).addAll exDyn = .ok t ∧
      GnuHashTable.addSymbols ((t.sorted id).map (·.gnuHash)) = some g ∧
      (t.sorted id)[3]?.map (·.gnuHash) = some (elfGnuHash b!"c") ∧
      gnuCandidates (serGnuHashTable g) (elfGnuHash b!"c").toNat = some [] :=
  ⟨_, _, rfl, rfl, by decide, by decide⟩

open GnuHashTable in
/-- **C17, partial** The loader's lookup always terminates, and only ever compares symbols whose hash
agrees in all but the lowest bit. It finds every dynamic symbol when the symbols of each bucket are
contiguous - in particular for fewer than eight symbols (one bucket). Missing: symbols whose bucket
is not contiguous (the code sorts by hash instead of by bucket). -/
theorem C17_gnu_lookup_partial (z : UInt32) (rest : List UInt32) (hlen : rest.length < 2 ^ 28) :
    ∃ t, addSymbols (z :: rest) = some t ∧
      (∀ h : Nat, ∃ L, gnuCandidates (serGnuHashTable t) h = some L ∧
        ∀ i ∈ L, ∃ x, (z :: rest)[i]? = some x ∧ i ≠ 0 ∧ x.toNat / 2 = h / 2) ∧
      ((∀ (i j k : Nat) (x y w : UInt32), i < j → j < k → rest[i]? = some x → rest[j]? = some y → rest[k]? = some w →
          x.toNat % field (serGnuHashTable t) 0 4 = w.toNat % field (serGnuHashTable t) 0 4 →
          y.toNat % field (serGnuHashTable t) 0 4 = w.toNat % field (serGnuHashTable t) 0 4) ∨
        (z :: rest).length < 8 →
        ∀ i x, i ≠ 0 → (z :: rest)[i]? = some x →
          ∃ L, gnuCandidates (serGnuHashTable t) x.toNat = some L ∧ i ∈ L) := by
  obtain ⟨t, h1, hB⟩ := addSymbols_built z rest hlen
  refine ⟨t, h1, ?_⟩
  have hnb : t.nbuckets < 2 ^ 32 := by rw [hB.nb]; omega
  have hnb0 : 0 < t.nbuckets := by rw [hB.nb]; omega
  have hblen : t.buckets.length = t.nbuckets := by rw [hB.buckets, length_fillBuckets]; simp
  have hclen : t.chains.length = rest.length := by rw [hB.chains, length_fillChains]
  have fnb := ser_h0 hnb
  have foff := ser_h1 (t := t) (by rw [hB.off]; omega)
  have fbs := ser_h2 hB.bbound
  -- chain entry of symbol i
  have hchain : ∀ i x, rest[i]? = some x →
      field (serGnuHashTable t) (16 + 8 * t.bloomSize + 4 * t.nbuckets + 4 * (i + 1 - t.symOffset)) 4 / 2 = x.toNat / 2 ∧
      (field (serGnuHashTable t) (16 + 8 * t.bloomSize + 4 * t.nbuckets + 4 * (i + 1 - t.symOffset)) 4 % 2 =
        match rest[i + 1]? with
        | none => 1
        | some y => if x.toNat % t.nbuckets ≠ y.toNat % t.nbuckets then 1 else 0) := by
    intro i x hx
    have hc := getElem?_fillChains t.nbuckets rest i x hx
    rw [← hB.chains] at hc
    have := ser_chain hc
    rw [hB.bsize, ← hblen, hB.off, Nat.add_sub_cancel, this, hblen]
    cases rest[i + 1]? with
    | none => exact ⟨(or_one x).2, (or_one x).1⟩
    | some y =>
      simp only
      split
      · exact ⟨(or_one x).2, (or_one x).1⟩
      · exact ⟨(and_not_one x).2, (and_not_one x).1⟩
  have hlenpos : rest.length ≤ (serGnuHashTable t).length := by
    rw [length_ser, size, hclen]; omega
  -- bucket entries
  have hbucket : ∀ h : Nat,
      ((∀ x ∈ rest, x.toNat % t.nbuckets ≠ h % t.nbuckets) ∧
        field (serGnuHashTable t) (16 + 8 * t.bloomSize + 4 * (h % t.nbuckets)) 4 = 0) ∨
      ∃ l1 x l2, rest = l1 ++ x :: l2 ∧ x.toNat % t.nbuckets = h % t.nbuckets ∧
        (∀ y ∈ l1, y.toNat % t.nbuckets ≠ h % t.nbuckets) ∧
        field (serGnuHashTable t) (16 + 8 * t.bloomSize + 4 * (h % t.nbuckets)) 4 = l1.length + 1 := by
    intro h
    have hlt : h % t.nbuckets < t.nbuckets := Nat.mod_lt _ hnb0
    have h0 : (List.replicate t.nbuckets 0)[h % t.nbuckets]? = some 0 := by
      simp only [List.getElem?_replicate]; rw [if_pos hlt]
    rcases fillBuckets_spec t.nbuckets rest (List.replicate t.nbuckets 0) 0 (by omega) _ h0 with
      ⟨h2, h3⟩ | ⟨l1, x, l2, h2, h3, h4, h5⟩
    · left
      rw [← hB.buckets] at h3
      exact ⟨h2, by rw [hB.bsize]; exact ser_bucket h3 (by omega)⟩
    · right
      refine ⟨l1, x, l2, h2, h3, h4, ?_⟩
      rw [← hB.buckets, Nat.zero_add] at h5
      rw [hB.bsize]
      refine ser_bucket h5 ?_
      have : l1.length < rest.length := by rw [h2]; simp
      omega
  -- the walk from the first symbol of a bucket
  have hwalk : ∀ (h : Nat) (l1 : List UInt32), l1.length < rest.length →
      ∃ L, gnuWalk (fun i => field (serGnuHashTable t)
          (16 + 8 * t.bloomSize + 4 * t.nbuckets + 4 * (i - t.symOffset)) 4) h
          (serGnuHashTable t).length (l1.length + 1) = some L ∧
        (∀ q ∈ L, ∃ x, (z :: rest)[q]? = some x ∧ q ≠ 0 ∧ x.toNat / 2 = h / 2) ∧
        ∀ i x, l1.length ≤ i → rest[i]? = some x → x.toNat / 2 = h / 2 →
          (∀ r, l1.length ≤ r → r < i → ∃ y y', rest[r]? = some y ∧ rest[r + 1]? = some y' ∧
            y.toNat % t.nbuckets = y'.toNat % t.nbuckets) → i + 1 ∈ L := by
    intro h l1 hl1
    have hlast : rest[rest.length - 1]? = some rest[rest.length - 1] := List.getElem?_eq_getElem (by omega)
    have hend := (hchain _ _ hlast).2
    rw [show rest.length - 1 + 1 = rest.length by omega, List.getElem?_eq_none (Nat.le_refl _)] at hend
    simp only at hend
    obtain ⟨L, hL1, hL2, hL3⟩ := walk_some (fun i => field (serGnuHashTable t)
          (16 + 8 * t.bloomSize + 4 * t.nbuckets + 4 * (i - t.symOffset)) 4) h (rest.length - 1 - l1.length)
          (l1.length + 1) (serGnuHashTable t).length
          (by
            show field _ (_ + 4 * (_ - _)) 4 % 2 = 1
            rw [show l1.length + 1 + (rest.length - 1 - l1.length) = rest.length by omega]
            exact hend) (by omega)
    refine ⟨L, hL1, ?_, ?_⟩
    · intro q hq
      obtain ⟨h2, h3, h4⟩ := hL2 q hq
      obtain ⟨i, rfl⟩ : ∃ i, q = i + 1 := ⟨q - 1, by omega⟩
      have hi : i < rest.length := by omega
      refine ⟨rest[i], by simp [hi], by omega, ?_⟩
      rw [← h2]
      exact (hchain i _ (List.getElem?_eq_getElem hi)).1.symm
    · intro i x hi hx hh hr
      refine hL3 (i + 1) (by omega) ?_ ?_
      · intro r hr1 hr2
        obtain ⟨r, rfl⟩ : ∃ r', r = r' + 1 := ⟨r - 1, by omega⟩
        obtain ⟨y, y', hy, hy', hyy⟩ := hr r (by omega) (by omega)
        have := (hchain r y hy).2
        rw [hy'] at this
        simpa [hyy] using this
      · exact (hchain i x hx).1.trans hh
  constructor
  · intro h
    unfold gnuCandidates
    simp only [fnb, foff, fbs]
    split
    · split
      · exact ⟨[], rfl, by simp⟩
      · next hb =>
        rcases hbucket h with ⟨-, h3⟩ | ⟨l1, x, l2, h2, h3, h4, h5⟩
        · exact absurd h3 hb
        · rw [h5]
          obtain ⟨L, hL1, hL2, -⟩ := hwalk h l1 (by rw [h2]; simp)
          exact ⟨L, hL1, hL2⟩
    · exact ⟨[], rfl, by simp⟩
  · intro hcont i x hi0 hx
    obtain ⟨i, rfl⟩ : ∃ i', i = i' + 1 := ⟨i - 1, by omega⟩
    simp only [List.getElem?_cons_succ] at hx
    have hxm : x ∈ rest := List.mem_of_getElem? hx
    unfold gnuCandidates
    simp only [fnb, foff, fbs, bloomTest_of_sets hB hxm, if_true]
    rcases hbucket x.toNat with ⟨h3, -⟩ | ⟨l1, y, l2, h2, h3, h4, h5⟩
    · exact absurd rfl (h3 x hxm)
    · rw [h5, if_neg (by omega)]
      have hile : l1.length ≤ i := by
        rcases Nat.lt_or_ge i l1.length with hlt | hge
        · exfalso
          rw [h2, List.getElem?_append_left hlt] at hx
          exact h4 x (List.mem_of_getElem? hx) rfl
        · exact hge
      obtain ⟨hilt, -⟩ := List.getElem?_eq_some_iff.1 hx
      obtain ⟨L, hL1, -, hL3⟩ := hwalk x.toNat l1 (by omega)
      refine ⟨L, hL1, hL3 i x hile hx rfl ?_⟩
      -- everything between the first symbol of the bucket and i is in the bucket
      have hin : ∀ r, l1.length ≤ r → r ≤ i → ∃ y, rest[r]? = some y ∧
          y.toNat % t.nbuckets = x.toNat % t.nbuckets := by
        intro r hr1 hr2
        refine ⟨rest[r]'(by omega), List.getElem?_eq_getElem _, ?_⟩
        rcases hcont with hcont | h8
        · by_cases e1 : r = i
          · subst e1
            rw [List.getElem?_eq_getElem (by omega)] at hx; cases hx; rfl
          · have hfirst : rest[l1.length]? = some y := by rw [h2]; simp
            by_cases e2 : r = l1.length
            · subst e2
              rw [List.getElem?_eq_getElem (by omega)] at hfirst
              rw [Option.some.inj hfirst]; exact h3
            · have := hcont l1.length r i y _ x (by omega) (by omega) hfirst
                (List.getElem?_eq_getElem (by omega)) hx
              rw [fnb] at this
              exact this h3
        · have : t.nbuckets = 1 := by rw [hB.nb]; simp at h8; omega
          rw [this, Nat.mod_one, Nat.mod_one]
      intro r hr1 hr2
      obtain ⟨a, ha, ha'⟩ := hin r hr1 (by omega)
      obtain ⟨b, hb, hb'⟩ := hin (r + 1) (by omega) (by omega)
      exact ⟨a, b, ha, hb, ha'.trans hb'.symm⟩

example : (GnuHashTable.addSymbols [0, 5, 6, 7, 100]).map (fun t =>
    gnuCandidates (serGnuHashTable t) 7) = some (some [2, 3]) := by decide
example : (GnuHashTable.addSymbols [0, 2, 4, 6, 8, 1, 3, 5]).map (fun t =>
    gnuCandidates (serGnuHashTable t) 3) = some (some [6]) := by decide

open HashTable in
/-- **C19, `.hash`** The emitted bytes have the declared layout: their number is the recorded size,
words 0 and 1 are the counts, the next words are the buckets and then the chains, and every bucket
and chain entry is a symbol index. -/
theorem C19_sysv_layout (hs : List UInt32) (hlen : hs.length < 2 ^ 32) :
    ∃ t, addSymbols hs = some t ∧ (serHashTable t).length = t.size ∧
      field (serHashTable t) 0 4 = t.buckets.length ∧ field (serHashTable t) 4 4 = t.chains.length ∧
      t.buckets.length = hs.length / 2 + 1 ∧ t.chains.length = hs.length ∧
      (∀ i, i < t.buckets.length → t.buckets[i]? = some (field (serHashTable t) (8 + 4 * i) 4)) ∧
      (∀ i, i < t.chains.length →
        t.chains[i]? = some (field (serHashTable t) (8 + 4 * t.buckets.length + 4 * i) 4)) ∧
      (∀ v, v ∈ t.buckets ∨ v ∈ t.chains → v = 0 ∨ v < hs.length) := by
  obtain ⟨⟨B, C⟩, h1, h2⟩ := addSymbols_spec hs hlen
  have hB : B.length = hs.length / 2 + 1 := h2.lenB
  have hC : C.length = hs.length := h2.lenC
  have hnb : (mk' B C).nbuckets = B.length := Nat.mod_eq_of_lt (by omega)
  have hnc : (mk' B C).nchains = C.length := Nat.mod_eq_of_lt (by omega)
  have hbound : ∀ v, v ∈ B ∨ v ∈ C → v = 0 ∨ v < hs.length := h2.bound
  have hlt : ∀ v, v ∈ B ∨ v ∈ C → v < 2 ^ 32 := by
    intro v hv; have := hbound v hv; omega
  refine ⟨_, h1, ?_, ?_, ?_, hB, hC, ?_, ?_, hbound⟩
  · rw [HashTable.length_ser, HashTable.size, hnb, hnc]
    show 8 + 4 * (B.length + C.length) = _
    omega
  · rw [ser_nb (t := mk' B C) (by omega), hnb]; rfl
  · rw [ser_nc (t := mk' B C) (by omega), hnc]; rfl
  · intro i hi
    have hi' : i < B.length := hi
    show B[i]? = _
    rw [List.getElem?_eq_getElem hi']
    congr 1
    refine (ser_word ?_ (hlt _ (.inl (List.getElem_mem hi')))).symm
    show (B ++ C)[i]? = _
    rw [List.getElem?_append_left hi', List.getElem?_eq_getElem hi']
  · intro i hi
    have hi' : i < C.length := hi
    show C[i]? = some (field _ (8 + 4 * B.length + 4 * i) 4)
    rw [List.getElem?_eq_getElem hi', Nat.add_assoc, ← Nat.mul_add]
    congr 1
    refine (ser_word ?_ (hlt _ (.inr (List.getElem_mem hi')))).symm
    show (B ++ C)[B.length + i]? = _
    rw [List.getElem?_append_right (by omega), Nat.add_sub_cancel_left, List.getElem?_eq_getElem hi']

example : (HashTable.addSymbols [0, 7, 9, 7, 4]).map (fun t => (t.size, (serHashTable t).length)) =
    some (40, 40) := by decide

open GnuHashTable in
/-- **C19, `.gnu.hash`** The emitted bytes have the declared layout: their number is the recorded size,
the header words are the counts, then come the bloom words, the buckets and one chain word per symbol
after the first; every bucket is a symbol index. -/
theorem C19_gnu_layout (z : UInt32) (rest : List UInt32) (hlen : rest.length < 2 ^ 28) :
    ∃ t, addSymbols (z :: rest) = some t ∧ (serGnuHashTable t).length = t.size ∧
      field (serGnuHashTable t) 0 4 = t.buckets.length ∧ field (serGnuHashTable t) 4 4 = 1 ∧
      field (serGnuHashTable t) 8 4 = t.bloom.length ∧ field (serGnuHashTable t) 12 4 = 26 ∧
      t.chains.length = rest.length ∧ 0 < t.buckets.length ∧ (∃ k, t.bloom.length = 2 ^ k) ∧
      (∀ i, i < t.bloom.length → t.bloom[i]? = some (field (serGnuHashTable t) (16 + 8 * i) 8)) ∧
      (∀ i, i < t.buckets.length →
        t.buckets[i]? = some (field (serGnuHashTable t) (16 + 8 * t.bloom.length + 4 * i) 4)) ∧
      (∀ i, i < t.chains.length → (t.chains[i]?).map (·.toNat) = some (field (serGnuHashTable t)
        (16 + 8 * t.bloom.length + 4 * t.buckets.length + 4 * i) 4)) ∧
      (∀ v ∈ t.buckets, v < (z :: rest).length) := by
  obtain ⟨t, h1, hB⟩ := addSymbols_built z rest hlen
  have hnb : t.nbuckets < 2 ^ 32 := by rw [hB.nb]; omega
  have hblen : t.buckets.length = t.nbuckets := by rw [hB.buckets, length_fillBuckets]; simp
  have hclen : t.chains.length = rest.length := by rw [hB.chains, length_fillChains]
  have hbound : ∀ v ∈ t.buckets, v ≤ rest.length := by
    have := fillBuckets_bound t.nbuckets rest (List.replicate t.nbuckets 0) 0 (by omega) (by
      intro v hv; rw [List.mem_replicate] at hv; omega)
    rw [← hB.buckets, Nat.zero_add] at this
    exact this
  refine ⟨t, h1, length_ser t, by rw [ser_h0 hnb, hblen], by rw [ser_h1 (by rw [hB.off]; omega), hB.off],
    by rw [ser_h2 hB.bbound, hB.bsize], by rw [ser_h3 (by rw [hB.shift]; omega), hB.shift], hclen,
    by rw [hblen, hB.nb]; omega, by rw [← hB.bsize]; exact hB.bpow, ?_, ?_, ?_, ?_⟩
  · intro i hi
    have := List.getElem?_eq_getElem hi
    rw [ser_bloom this (hB.bword _ (List.getElem_mem hi)), this]
  · intro i hi
    have := List.getElem?_eq_getElem hi
    rw [ser_bucket this (by have := hbound _ (List.getElem_mem hi); omega), this]
  · intro i hi
    have := List.getElem?_eq_getElem hi
    rw [ser_chain this, this]; rfl
  · intro v hv
    have := hbound v hv
    simp; omega

example : (GnuHashTable.addSymbols [0, 5, 6, 7, 100]).map (fun t => (t.size, (serGnuHashTable t).length)) =
    some (44, 44) := by decide

end Dld
