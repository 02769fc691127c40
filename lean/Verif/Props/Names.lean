import Verif.Model.Name
import Verif.Spec.Hash
/-! # C01, C02: symbol hashes -/
namespace Dld

private theorem clear_top (x t : Nat) (hx : x < 2 ^ 32) (htop : x / 2 ^ 28 = t / 2 ^ 28)
    (ht : t < 2 ^ 32) :
    x &&& (2 ^ 32 - 1 - (t &&& 0xf0000000)) = x % 2 ^ 28 := by
  apply Nat.eq_of_testBit_eq
  intro i
  have hg : t &&& 0xf0000000 < 2 ^ 32 := Nat.lt_of_le_of_lt Nat.and_le_left ht
  have hsub : 2 ^ 32 - 1 - (t &&& 0xf0000000) = 2 ^ 32 - ((t &&& 0xf0000000) + 1) := by omega
  rw [Nat.testBit_and, hsub, Nat.testBit_two_pow_sub_succ hg, Nat.testBit_and, Nat.testBit_mod_two_pow]
  by_cases h28 : i < 28
  · have hmask : Nat.testBit 0xf0000000 i = false := by
      have : ∀ j, j < 28 → Nat.testBit 0xf0000000 j = false := by decide
      exact this i h28
    have h32 : i < 32 := by omega
    simp [hmask, h28, h32]
  · by_cases h32 : i < 32
    · have hmask : Nat.testBit 0xf0000000 i = true := by
        have : ∀ j, j < 32 → ¬ j < 28 → Nat.testBit 0xf0000000 j = true := by decide
        exact this i h32 h28
      have hxt : x.testBit i = t.testBit i := by
        have h1 := Nat.testBit_div_two_pow (x := x) (n := 28) (i - 28)
        have h2 := Nat.testBit_div_two_pow (x := t) (n := 28) (i - 28)
        rw [show i - 28 + 28 = i by omega] at h1 h2
        rw [← h1, ← h2, htop]
      simp [hmask, h28, h32, hxt]
    · have hxi : x.testBit i = false := Nat.testBit_lt_two_pow (Nat.lt_of_lt_of_le hx
        (Nat.pow_le_pow_right (by decide) (by omega)))
      simp [hxi]

private theorem top_nibble (t : Nat) (ht : t < 2 ^ 32) :
    t &&& 0xf0000000 = 2 ^ 28 * (t / 2 ^ 28) := by
  have h1 : t &&& (2 ^ 32 - 1 - (t &&& 0xf0000000)) = t % 2 ^ 28 := clear_top t t ht rfl ht
  apply Nat.eq_of_testBit_eq
  intro i
  rw [Nat.testBit_and, Nat.testBit_two_pow_mul, Nat.testBit_div_two_pow]
  by_cases h28 : i < 28
  · have hmask : Nat.testBit 0xf0000000 i = false := by
      have : ∀ j, j < 28 → Nat.testBit 0xf0000000 j = false := by decide
      exact this i h28
    simp [hmask]; omega
  · by_cases h32 : i < 32
    · have hmask : Nat.testBit 0xf0000000 i = true := by
        have : ∀ j, j < 32 → ¬ j < 28 → Nat.testBit 0xf0000000 j = true := by decide
        exact this i h32 h28
      simp [hmask, show 28 ≤ i by omega, show i - 28 + 28 = i by omega]
    · have hti : t.testBit i = false := Nat.testBit_lt_two_pow (Nat.lt_of_lt_of_le ht
        (Nat.pow_le_pow_right (by decide) (by omega)))
      simp [hti, show i - 28 + 28 = i by omega]

private theorem elfHashStep_toNat (h : UInt32) (b : UInt8) (hh : h.toNat < 2 ^ 28) :
    (elfHashStep h b).toNat = Spec.sysvStep h.toNat b.toNat ∧
      (elfHashStep h b).toNat < 2 ^ 28 := by
  have hb := b.toNat_lt
  have ht : ((h <<< 4) + b.toUInt32).toNat = (16 * h.toNat + b.toNat) % 2 ^ 32 := by
    have h1 : (h <<< 4).toNat = 16 * h.toNat := by
      rw [UInt32.toNat_shiftLeft, show (4 : UInt32).toNat % 32 = 4 from rfl, Nat.shiftLeft_eq]
      omega
    rw [UInt32.toNat_add, h1, UInt8.toNat_toUInt32]
  have ht' : (16 * h.toNat + b.toNat) % 2 ^ 32 < 2 ^ 32 := Nat.mod_lt _ (by decide)
  have hm1 : (16 * h.toNat + b.toNat) % 2 ^ 28 = (16 * h.toNat + b.toNat) % 2 ^ 32 % 2 ^ 28 := by
    omega
  have hm2 : (16 * h.toNat + b.toNat) / 2 ^ 28 % 16
      = (16 * h.toNat + b.toNat) % 2 ^ 32 / 2 ^ 28 := by omega
  generalize htt : (16 * h.toNat + b.toNat) % 2 ^ 32 = t at ht ht' hm1 hm2
  have ht32 : t < 2 ^ 32 := ht'
  have hgval : (((h <<< 4) + b.toUInt32) &&& 0xf0000000).toNat = 2 ^ 28 * (t / 2 ^ 28) := by
    rw [UInt32.toNat_and, ht]; exact top_nibble t ht32
  have hgs : ((((h <<< 4) + b.toUInt32) &&& 0xf0000000) >>> 24).toNat = 16 * (t / 2 ^ 28) := by
    rw [UInt32.toNat_shiftRight, hgval]
    simp [Nat.shiftRight_eq_div_pow]
    omega
  have hsmall : 16 * (t / 2 ^ 28) < 2 ^ 28 := by omega
  have hx : (if (((h <<< 4) + b.toUInt32) &&& 0xf0000000) != 0 then
        ((h <<< 4) + b.toUInt32) ^^^ ((((h <<< 4) + b.toUInt32) &&& 0xf0000000) >>> 24)
      else ((h <<< 4) + b.toUInt32)).toNat = t ^^^ (16 * (t / 2 ^ 28)) := by
    split
    · rw [UInt32.toNat_xor, ht, hgs]
    · rename_i hne
      have h0 : (((h <<< 4) + b.toUInt32) &&& 0xf0000000) = 0 := by simpa using hne
      have : 2 ^ 28 * (t / 2 ^ 28) = 0 := by rw [← hgval, h0]; rfl
      have : t / 2 ^ 28 = 0 := by omega
      rw [this, ht]; simp
  have hxor28 : (t ^^^ (16 * (t / 2 ^ 28))) / 2 ^ 28 = t / 2 ^ 28 := by
    rw [Nat.xor_div_two_pow, Nat.div_eq_of_lt hsmall, Nat.xor_zero]
  have hxlt : t ^^^ (16 * (t / 2 ^ 28)) < 2 ^ 32 := Nat.xor_lt_two_pow ht32 (by omega)
  have key : (elfHashStep h b).toNat = Spec.sysvStep h.toNat b.toNat := by
    unfold elfHashStep Spec.sysvStep
    simp only [hm1, hm2]
    rw [UInt32.toNat_and, hx, UInt32.toNat_not, UInt32.toNat_and, ht]
    rw [show (UInt32.toNat 0xf0000000) = 0xf0000000 from rfl,
      show UInt32.size - 1 = 2 ^ 32 - 1 from rfl]
    rw [clear_top _ t hxlt hxor28 ht32, Nat.xor_mod_two_pow, Nat.mod_eq_of_lt hsmall]
  refine ⟨key, ?_⟩
  rw [key]
  unfold Spec.sysvStep
  simp only [hm1, hm2]
  exact Nat.xor_lt_two_pow (Nat.mod_lt _ (by decide)) hsmall

private theorem elfHash_foldl (n : Name) (h : UInt32) (hh : h.toNat < 2 ^ 28) :
    (n.foldl elfHashStep h).toNat = n.foldl (fun h b => Spec.sysvStep h b.toNat) h.toNat ∧
      (n.foldl elfHashStep h).toNat < 2 ^ 28 := by
  induction n generalizing h with
  | nil => exact ⟨rfl, hh⟩
  | cons b bs ih =>
    have hs := elfHashStep_toNat h b hh
    have := ih (elfHashStep h b) hs.2
    simpa [hs.1] using this

/-- **C01**: for every name the SysV hash the code computes is the gABI hash, and it fits in 28
bits. -/
theorem C01_elf_hash_is_gabi (name : Name) :
    (elfHash name).toNat = Spec.sysvHash name ∧ (elfHash name).toNat < 2 ^ 28 := by
  simpa [elfHash, Spec.sysvHash] using elfHash_foldl name 0 (by decide)

/-- published value for `printf` -/
example : Spec.sysvHash b!"printf" = 0x077905a6 := by decide
/-- the folding branch is exercised -/
example : Spec.sysvHash b!"__libc_start_main" = 24641422 := by decide
/-- the 32-bit carry is lost: `16 * h + c` exceeds `2^32` here -/
example : 16 * 0xfffffff + 0xff ≥ 2 ^ 32 ∧ Spec.sysvStep 0xfffffff 0xff = 0xef := by decide

private theorem elfGnuHash_foldl (n : Name) (h : UInt32) :
    (n.foldl elfGnuHashStep h).toNat = (h.toNat * 33 ^ n.length + Spec.poly33 n) % 2 ^ 32 := by
  induction n generalizing h with
  | nil => simp [Spec.poly33, Nat.mod_eq_of_lt h.toNat_lt]
  | cons b bs ih =>
    rw [List.foldl_cons, ih]
    have hs : (elfGnuHashStep h b).toNat = (h.toNat * 33 + b.toNat) % 2 ^ 32 := by
      simp [elfGnuHashStep, UInt32.toNat_add, UInt32.toNat_shiftLeft, Nat.shiftLeft_eq]
      omega
    rw [hs, Spec.poly33, List.length_cons, Nat.add_mod, Nat.mul_mod, Nat.mod_mod, ← Nat.mul_mod,
      ← Nat.add_mod]
    congr 1
    rw [Nat.add_mul, Nat.mul_assoc, ← Nat.pow_succ', Nat.add_assoc]

/-- **C02**: for every name the GNU hash the code computes is the polynomial hash modulo 2^32. -/
theorem C02_gnu_hash_is_polynomial (name : Name) :
    (elfGnuHash name).toNat = Spec.gnuHash name := elfGnuHash_foldl name 5381

/-- published value for `printf` -/
example : Spec.gnuHash b!"printf" = 0x156b2bb8 := by decide

end Dld
