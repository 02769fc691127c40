import Verif.Model.Bytes
import Verif.Spec.Decode
/-! # Lemmas about little-endian encoding, slices and overwriting -/
namespace Dld
open Spec

@[simp] theorem length_le (k n : Nat) : (le k n).length = k := by
  induction k generalizing n with
  | zero => rfl
  | succ k ih => simp [le, ih]

@[simp] theorem length_leInt (k : Nat) (i : Int) : (leInt k i).length = k := by simp [leInt]

theorem fromLe_le (k n : Nat) : fromLe (le k n) = n % 256 ^ k := by
  induction k generalizing n with
  | zero => simp [le, fromLe, Nat.mod_one]
  | succ k ih =>
    rw [le, fromLe, ih, Nat.pow_succ, Nat.mul_comm (256 ^ k) 256, Nat.mod_mul]
    simp

theorem fromLe_le_of_lt {k n : Nat} (h : n < 256 ^ k) : fromLe (le k n) = n := by
  rw [fromLe_le, Nat.mod_eq_of_lt h]

theorem signed_leInt {k : Nat} (hk : 0 < k) {i : Int} (h1 : -(256 ^ k / 2 : Nat) ≤ i)
    (h2 : i < (256 ^ k / 2 : Nat)) : signed k (fromLe (leInt k i)) = i := by
  have hp : 0 < 256 ^ k := Nat.pow_pos (by decide)
  have heven : 256 ^ k / 2 * 2 = 256 ^ k := by
    obtain ⟨j, rfl⟩ : ∃ j, k = j + 1 := ⟨k - 1, by omega⟩
    rw [Nat.pow_succ]; omega
  unfold leInt signed
  rw [fromLe_le]
  generalize 256 ^ k = m at *
  have hm0 : 0 ≤ i % (m : Int) := Int.emod_nonneg _ (by omega)
  have hm1 : i % (m : Int) < m := Int.emod_lt_of_pos _ (by omega)
  have hlt : (i % (m : Int)).toNat < m := by omega
  rw [Nat.mod_eq_of_lt hlt]
  by_cases hi : 0 ≤ i
  · have : i % (m : Int) = i := Int.emod_eq_of_lt hi (by omega)
    rw [this, if_pos (by omega)]
    omega
  · have : i % (m : Int) = i + m := by
      rw [← Int.add_emod_right]
      exact Int.emod_eq_of_lt (by omega) (by omega)
    rw [this, if_neg (by omega)]
    omega

theorem slice_append_left {a b : Bytes} {off len : Nat} (h : off + len ≤ a.length) :
    slice (a ++ b) off len = slice a off len := by
  unfold slice
  rw [List.drop_append_of_le_length (by omega), List.take_append_of_le_length (by simp; omega)]

theorem slice_append_right {a b : Bytes} {off len : Nat} (h : a.length ≤ off) :
    slice (a ++ b) off len = slice b (off - a.length) len := by
  unfold slice
  rw [List.drop_append, List.drop_eq_nil_of_le h, List.nil_append]

theorem slice_self {a : Bytes} {len : Nat} (h : a.length = len) : slice a 0 len = a := by
  simp [slice, ← h]

/-- the bytes of a list placed inside a larger image -/
theorem slice_mid {a v c : Bytes} {off len : Nat} (h1 : a.length = off) (h2 : v.length = len) :
    slice (a ++ v ++ c) off len = v := by
  rw [slice_append_left (by simp [h1, h2]), slice_append_right (by omega),
    show off - a.length = 0 by omega, slice_self h2]

theorem slice_add (img : Bytes) (off i len : Nat) :
    slice img (off + i) len = slice (img.drop off) i len := by
  simp [slice, List.drop_drop]

theorem field_drop (img : Bytes) (off i k : Nat) :
    field img (off + i) k = field (img.drop off) i k := by
  simp [field, slice_add]

theorem field_drop0 (img : Bytes) (off k : Nat) :
    field img off k = field (img.drop off) 0 k := field_drop img off 0 k

/-- the first field of an image -/
theorem field_head {k n : Nat} (rest : Bytes) (h : n < 256 ^ k) : field (le k n ++ rest) 0 k = n := by
  rw [field, slice_append_left (by simp), slice_self (by simp), fromLe_le_of_lt h]

/-- skip the first field of an image -/
theorem field_skip {v : Bytes} {off k m : Nat} (rest : Bytes) (hv : v.length = m) (h : m ≤ off) :
    field (v ++ rest) off k = field rest (off - m) k := by
  rw [field, slice_append_right (by omega), hv]; rfl

theorem sfield_head {k : Nat} (hk : 0 < k) {i : Int} (rest : Bytes) (h1 : -(256 ^ k / 2 : Nat) ≤ i)
    (h2 : i < (256 ^ k / 2 : Nat)) : sfield (leInt k i ++ rest) 0 k = i := by
  rw [sfield, field, slice_append_left (by simp), slice_self (by simp), signed_leInt hk h1 h2]

end Dld
