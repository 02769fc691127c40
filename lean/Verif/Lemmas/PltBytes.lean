import Verif.Lemmas.Bytes
import Verif.Lemmas.Except
import Verif.Spec.X86
import Verif.Model.Writer
/-! # The bytes of the procedure linkage table -/
namespace Dld
open Writer Spec

/-! ### Slices of overwritten buffers -/

theorem slice_length {img : Bytes} {o n : Nat} (h : o + n ≤ img.length) : (slice img o n).length = n := by
  simp [slice]; omega

theorem slice_getElem? (img : Bytes) (o n i : Nat) : (slice img o n)[i]? = if i < n then img[o + i]? else none := by
  unfold slice
  by_cases h : i < n
  · rw [if_pos h, List.getElem?_take_of_lt h, List.getElem?_drop]
  · rw [if_neg h]; simp only [List.getElem?_eq_none_iff, List.length_take]; omega

theorem slice_writeAt_out {buf v out : Bytes} {off o n : Nat} (h : writeAt buf off v = .ok out)
    (hd : o + n ≤ off ∨ off + v.length ≤ o) : slice out o n = slice buf o n := by
  apply List.ext_getElem?
  intro i
  rw [slice_getElem?, slice_getElem?]
  split
  · rw [getElem?_writeAt h, if_neg (by omega)]
  · rfl

theorem slice_writeAt_in {buf v out : Bytes} {off n : Nat} (h : writeAt buf off v = .ok out) (hn : v.length = n) :
    slice out off n = v := by
  obtain ⟨h1, rfl⟩ := writeAt_ok.1 h
  exact slice_mid (by simp; omega) hn

theorem slice_split (img : Bytes) (o m n : Nat) : slice img o (m + n) = slice img o m ++ slice img (o + m) n := by
  unfold slice
  rw [List.take_add, List.drop_drop]

/-- a slice of a slice -/
theorem slice_slice {img : Bytes} {o n i k : Nat} (h : i + k ≤ n) : slice (slice img o n) i k = slice img (o + i) k := by
  apply List.ext_getElem?
  intro j
  simp only [slice_getElem?]
  by_cases hj : j < k
  · rw [if_pos hj, if_pos (by omega), if_pos hj, Nat.add_assoc]
  · rw [if_neg hj, if_neg hj]

theorem field_of_slice {img c : Bytes} {o n i k : Nat} (h : slice img o n = c) (hk : i + k ≤ n) : field img (o + i) k = field c i k := by
  unfold field; rw [← h, slice_slice hk]

theorem sfield_of_slice {img c : Bytes} {o n i k : Nat} (h : slice img o n = c) (hk : i + k ≤ n) : sfield img (o + i) k = sfield c i k := by
  unfold sfield; rw [field_of_slice h hk]

/-! ### Code -/

/-- a finished entry -/
def pltCode (d1 : Int) (j : Nat) (d2 : Int) : Bytes := [0xff, 0x25] ++ leInt 4 d1 ++ [0x68] ++ le 4 (u32 j) ++ [0xe9] ++ leInt 4 d2
/-- the finished header -/
def pltHead (d1 d2 : Int) : Bytes := [0xff, 0x35] ++ leInt 4 d1 ++ [0xff, 0x25] ++ leInt 4 d2 ++ [0x90, 0x90, 0x90, 0x90]

def InI32 (v : Int) : Prop := -2147483648 ≤ v ∧ v < 2147483648

theorem i32_fits {x y : Int} : i32 x = .ok y ↔ y = x ∧ InI32 x := by
  unfold i32 InI32
  split
  · next h => simp [h, eq_comm]
  · next h => simp [h]

theorem sfield_leInt4 {v : Int} (h : InI32 v) : sfield (leInt 4 v) 0 4 = v := by
  have := sfield_head (k := 4) (by decide) (i := v) [] (by unfold InI32 at h; omega) (by unfold InI32 at h; omega)
  rwa [List.append_nil] at this

/-- one entry: an indirect jump through a word, a push and a jump -/
theorem decode_pltCode {img : Bytes} {o : Nat} {d1 d2 : Int} {j : Nat} {addr : Int} (h : slice img o 16 = pltCode d1 j d2) (h1 : InI32 d1) (h2 : InI32 d2)
    (hj : j < 2147483648) :
    decodeInstr img o addr = some (.jmpMem (addr + 6 + d1), 6) ∧
    decodeInstr img (o + 6) (addr + 6) = some (.push j, 5) ∧
    decodeInstr img (o + 11) (addr + 11) = some (.jmp (addr + 16 + d2), 5) := by
  have hl : o + 16 ≤ img.length := by
    have := congrArg List.length h
    simp [slice, pltCode] at this
    omega
  have hc : (leInt 4 d1).length = 4 := by simp
  have hb : ∀ i, i + 1 ≤ 16 → field img (o + i) 1 = field (pltCode d1 j d2) i 1 := fun i hi => field_of_slice h hi
  have hs : ∀ i, i + 4 ≤ 16 → sfield img (o + i) 4 = sfield (pltCode d1 j d2) i 4 := fun i hi => sfield_of_slice h hi
  have g1 : slice (pltCode d1 j d2) 2 4 = leInt 4 d1 := by
    unfold pltCode; simp [slice]
  have g2 : slice (pltCode d1 j d2) 7 4 = le 4 (u32 j) := by
    have : pltCode d1 j d2 = ([0xff, 0x25] ++ leInt 4 d1 ++ [0x68]) ++ le 4 (u32 j) ++ ([0xe9] ++ leInt 4 d2) := by simp [pltCode]
    rw [this]; exact slice_mid (by simp) (by simp)
  have g3 : slice (pltCode d1 j d2) 12 4 = leInt 4 d2 := by
    have : pltCode d1 j d2 = ([0xff, 0x25] ++ leInt 4 d1 ++ [0x68] ++ le 4 (u32 j) ++ [0xe9]) ++ leInt 4 d2 ++ [] := by simp [pltCode]
    rw [this]; exact slice_mid (by simp) (by simp)
  have b0 : field img (o + 0) 1 = 0xff := by rw [hb 0 (by decide)]; rfl
  have b1 : field img (o + 1) 1 = 0x25 := by rw [hb 1 (by decide)]; rfl
  have b6 : field img (o + 6) 1 = 0x68 := by
    rw [hb 6 (by decide)]
    have : pltCode d1 j d2 = ([0xff, 0x25] ++ leInt 4 d1) ++ [0x68] ++ (le 4 (u32 j) ++ [0xe9] ++ leInt 4 d2) := by simp [pltCode]
    unfold field; rw [this, slice_mid (by simp) (by simp)]; rfl
  have b11 : field img (o + 11) 1 = 0xe9 := by
    rw [hb 11 (by decide)]
    have : pltCode d1 j d2 = ([0xff, 0x25] ++ leInt 4 d1 ++ [0x68] ++ le 4 (u32 j)) ++ [0xe9] ++ leInt 4 d2 := by simp [pltCode]
    unfold field; rw [this, slice_mid (by simp) (by simp)]; rfl
  have s2 : sfield img (o + 2) 4 = d1 := by
    rw [hs 2 (by decide)]; unfold sfield field; rw [g1]
    have := sfield_leInt4 h1
    unfold sfield field at this
    rwa [slice_self (by simp)] at this
  have s7 : sfield img (o + 7) 4 = j := by
    rw [hs 7 (by decide)]; unfold sfield field; rw [g2, fromLe_le_of_lt (by unfold u32; omega)]
    unfold signed u32
    rw [if_pos (by omega)]
    omega
  have s12 : sfield img (o + 12) 4 = d2 := by
    rw [hs 12 (by decide)]; unfold sfield field; rw [g3]
    have := sfield_leInt4 h2
    unfold sfield field at this
    rwa [slice_self (by simp)] at this
  refine ⟨?_, ?_, ?_⟩
  · unfold decodeInstr
    simp only [b0, b1, s2]
    rw [if_neg (by decide), if_pos trivial, show ripReg 0x25 = some 4 from rfl]
    simp only
    rw [if_neg (by omega), if_neg (by decide), if_pos trivial]
    congr 3
  · unfold decodeInstr
    simp only [Nat.add_zero, b6, Nat.add_assoc, Nat.reduceAdd, s7]
    rw [if_neg (by decide), if_neg (by decide), if_neg (by omega), if_neg (by decide), if_neg (by omega),
      if_neg (by decide), if_neg (by decide), if_pos trivial]
  · unfold decodeInstr
    simp only [Nat.add_zero, b11, Nat.add_assoc, Nat.reduceAdd, s12]
    rw [if_neg (by decide), if_neg (by decide), if_neg (by omega), if_neg (by decide), if_neg (by omega),
      if_neg (by decide), if_pos trivial]
    congr 3
    omega

/-- the header: push a word and jump through another -/
theorem decode_pltHead {img : Bytes} {o : Nat} {d1 d2 : Int} {addr : Int} (h : slice img o 16 = pltHead d1 d2) (h1 : InI32 d1) (h2 : InI32 d2) :
    decodeInstr img o addr = some (.pushMem (addr + 6 + d1), 6) ∧
    decodeInstr img (o + 6) (addr + 6) = some (.jmpMem (addr + 12 + d2), 6) := by
  have hl : o + 16 ≤ img.length := by
    have := congrArg List.length h
    simp [slice, pltHead] at this
    omega
  have hb : ∀ i, i + 1 ≤ 16 → field img (o + i) 1 = field (pltHead d1 d2) i 1 := fun i hi => field_of_slice h hi
  have hs : ∀ i, i + 4 ≤ 16 → sfield img (o + i) 4 = sfield (pltHead d1 d2) i 4 := fun i hi => sfield_of_slice h hi
  have g1 : slice (pltHead d1 d2) 2 4 = leInt 4 d1 := by
    unfold pltHead; simp [slice]
  have e2 : pltHead d1 d2 = ([0xff, 0x35] ++ leInt 4 d1 ++ [0xff, 0x25]) ++ leInt 4 d2 ++ [0x90, 0x90, 0x90, 0x90] := by simp [pltHead]
  have g2 : slice (pltHead d1 d2) 8 4 = leInt 4 d2 := by
    rw [e2]; exact slice_mid (by simp) (by simp)
  have b0 : field img (o + 0) 1 = 0xff := by rw [hb 0 (by decide)]; rfl
  have b1 : field img (o + 1) 1 = 0x35 := by rw [hb 1 (by decide)]; rfl
  have b6 : field img (o + 6) 1 = 0xff := by
    rw [hb 6 (by decide)]
    have : pltHead d1 d2 = ([0xff, 0x35] ++ leInt 4 d1) ++ [0xff] ++ ([0x25] ++ leInt 4 d2 ++ [0x90, 0x90, 0x90, 0x90]) := by simp [pltHead]
    unfold field; rw [this, slice_mid (by simp) (by simp)]; rfl
  have b7 : field img (o + 7) 1 = 0x25 := by
    rw [hb 7 (by decide)]
    have : pltHead d1 d2 = ([0xff, 0x35] ++ leInt 4 d1 ++ [0xff]) ++ [0x25] ++ (leInt 4 d2 ++ [0x90, 0x90, 0x90, 0x90]) := by simp [pltHead]
    unfold field; rw [this, slice_mid (by simp) (by simp)]; rfl
  have s2 : sfield img (o + 2) 4 = d1 := by
    rw [hs 2 (by decide)]; unfold sfield field; rw [g1]
    have := sfield_leInt4 h1
    unfold sfield field at this
    rwa [slice_self (by simp)] at this
  have s8 : sfield img (o + 8) 4 = d2 := by
    rw [hs 8 (by decide)]; unfold sfield field; rw [g2]
    have := sfield_leInt4 h2
    unfold sfield field at this
    rwa [slice_self (by simp)] at this
  refine ⟨?_, ?_⟩
  · unfold decodeInstr
    simp only [b0, b1, s2]
    rw [if_neg (by decide), if_pos trivial, show ripReg 0x35 = some 6 from rfl]
    simp only
    rw [if_neg (by omega), if_neg (by decide), if_neg (by decide), if_pos trivial]
    congr 3
  · unfold decodeInstr
    simp only [Nat.add_zero, b6, Nat.add_assoc, Nat.reduceAdd, b7, s8]
    rw [if_neg (by decide), if_pos trivial, show ripReg 0x25 = some 4 from rfl]
    simp only
    rw [if_neg (by omega), if_neg (by decide), if_pos trivial]
    congr 3
    omega

/-! ### One entry -/

/-- one patched entry -/
structure EntryDone (pa ga i off j : Nat) (pd gd pd' gd' : Bytes) : Prop where
  d1 : InI32 ((off + ga : Nat) - (pa + 16 * (i + 1) : Nat) - 6 : Int)
  d2 : InI32 (-(16 * (i + 2) : Nat) : Int)
  addr : (pa + 16 * (i + 1) : Nat) < 2 ^ 63
  code : slice pd (16 * (i + 1)) 16 = pltEntry → slice pd' (16 * (i + 1)) 16 = pltCode ((off + ga : Nat) - (pa + 16 * (i + 1) : Nat) - 6) j (-(16 * (i + 2) : Nat))
  word : slice gd' off 8 = leInt 8 ((pa + 16 * (i + 1) : Nat) + 6)
  fits : off + 8 ≤ gd.length

/-- what patching one entry does -/
structure EntryFacts (pa ga i off j : Nat) (pd gd pd' gd' : Bytes) : Prop extends EntryDone pa ga i off j pd gd pd' gd' where
  restP : ∀ o n, o + n ≤ 16 * (i + 1) ∨ 16 * (i + 2) ≤ o → slice pd' o n = slice pd o n
  restG : ∀ o n, o + n ≤ off ∨ off + 8 ≤ o → slice gd' o n = slice gd o n
  lenP : pd'.length = pd.length
  lenG : gd'.length = gd.length

theorem patchPltEntry_facts {t : SymbolTable} {pa ga : Nat} {pd gd pd' gd' : Bytes} {r : SymbolRef} {off : Nat}
    (h : patchPltEntry t pa ga (pd, gd) (r, off) = .ok (pd', gd')) :
    ∃ s i j, t.get r = some s ∧ s.inPlt = some i ∧ s.relocationOffset = some j ∧ EntryFacts pa ga i off j pd gd pd' gd' := by
  simp only [patchPltEntry, bind_ok, unwrap_ok] at h
  obtain ⟨s, hs, i, hi, ea, hea, g1, hg1, v1, hv1, p1, hp1, j, hj, p2, hp2, v2, hv2, p3, hp3, h⟩ := h
  simp only [Except.ok.injEq, Prod.mk.injEq] at h
  obtain ⟨rfl, rfl⟩ := h
  have hea' : ea = (pa + 16 * (i + 1) : Nat) ∧ (pa + 16 * (i + 1) : Nat) < 2 ^ 63 := by
    unfold pltEntryAddr i64 at hea
    split at hea
    · next hh =>
      cases hea
      unfold PLT_ENTRY_SIZE at *
      exact ⟨by omega, by omega⟩
    · cases hea
  obtain ⟨rfl, hlt⟩ := hea'
  obtain ⟨rfl, w1⟩ := i32_fits.1 hv1
  obtain ⟨rfl, w2⟩ := i32_fits.1 hv2
  simp only [PLT_ENTRY_JMP_INSTR_SIZE, PLT_ENTRY_PUSH_INSTR_SIZE, PLT_ENTRY_SIZE] at *
  have hoff : ((((pa + 16 * (i + 1) : Nat) : Int) - pa).toNat) = 16 * (i + 1) := by omega
  rw [hoff] at hp1 hp2 hp3
  have e2 : ((pa : Int) - (((pa + 16 * (i + 1) : Nat) : Int) + (16 : Nat))) = -(16 * (i + 2) : Nat) := by omega
  rw [e2] at w2 hp3
  refine ⟨s, i, j, hs, hi, hj, ⟨w1, w2, hlt, ?_, slice_writeAt_in hg1 (by simp), by have := (writeAt_ok.1 hg1).1; simpa using this⟩, ?_, ?_, ?_, length_writeAt hg1⟩
  · intro ht
    have part : ∀ k n, k + n ≤ 16 → slice pd (16 * (i + 1) + k) n = slice pltEntry k n := by
      intro k n hk; rw [← ht, slice_slice hk]
    have c0 : slice p3 (16 * (i + 1)) 2 = [0xff, 0x25] := by
      rw [slice_writeAt_out hp3 (by omega), slice_writeAt_out hp2 (by omega), slice_writeAt_out hp1 (by omega)]
      exact part 0 2 (by decide)
    have c1 : slice p3 (16 * (i + 1) + 2) 4 = leInt 4 ((off + ga : Nat) - (pa + 16 * (i + 1) : Nat) - (6 : Nat)) := by
      rw [slice_writeAt_out hp3 (by omega), slice_writeAt_out hp2 (by omega)]
      exact slice_writeAt_in hp1 (by simp)
    have c2 : slice p3 (16 * (i + 1) + 6) 1 = [0x68] := by
      rw [slice_writeAt_out hp3 (by omega), slice_writeAt_out hp2 (by omega), slice_writeAt_out hp1 (by simp)]
      exact part 6 1 (by decide)
    have c3 : slice p3 (16 * (i + 1) + 7) 4 = le 4 (u32 j) := by
      rw [slice_writeAt_out hp3 (by omega)]
      exact slice_writeAt_in hp2 (by simp)
    have c4 : slice p3 (16 * (i + 1) + 11) 1 = [0xe9] := by
      rw [slice_writeAt_out hp3 (by omega), slice_writeAt_out hp2 (by simp), slice_writeAt_out hp1 (by simp)]
      exact part 11 1 (by decide)
    have c5 : slice p3 (16 * (i + 1) + 12) 4 = leInt 4 (-(16 * (i + 2) : Nat)) := slice_writeAt_in hp3 (by simp)
    rw [show 16 = 2 + (4 + (1 + (4 + (1 + 4)))) from rfl, slice_split p3 (_ * _) 2, slice_split p3 _ 4, slice_split p3 _ 1, slice_split p3 _ 4, slice_split p3 _ 1]
    simp only [Nat.reduceAdd, Nat.add_assoc] at *
    rw [c0, c1, c2, c3, c4, c5]
    simp [pltCode]
  · intro o n ho
    rw [slice_writeAt_out hp3 (by simp; omega), slice_writeAt_out hp2 (by simp; omega), slice_writeAt_out hp1 (by simp; omega)]
  · intro o n ho
    rw [slice_writeAt_out hg1 (by simpa using ho)]
  · rw [length_writeAt hp3, length_writeAt hp2, length_writeAt hp1]

/-- the header after patching -/
theorem patchPltHeader_facts {pa ga : Nat} {d d' : Bytes} (h : patchPltHeader pa ga d = .ok d') :
    InI32 ((ga : Int) - pa + 2) ∧ InI32 ((ga : Int) - pa + 4) ∧ d'.length = d.length ∧
    (slice d 0 16 = pltHeader → slice d' 0 16 = pltHead ((ga : Int) - pa + 2) ((ga : Int) - pa + 4)) ∧
    ∀ o n, 16 ≤ o → slice d' o n = slice d o n := by
  simp only [patchPltHeader, bind_ok] at h
  obtain ⟨v1, hv1, p1, hp1, v2, hv2, hp2⟩ := h
  obtain ⟨rfl, w1⟩ := i32_fits.1 hv1
  obtain ⟨rfl, w2⟩ := i32_fits.1 hv2
  simp only [PLT_ENTRY_JMP_INSTR_SIZE] at *
  have x1 : (ga : Int) - pa + 8 - (6 : Nat) = (ga : Int) - pa + 2 := by omega
  have x2 : (ga : Int) - pa + 2 * 8 - 2 * (6 : Nat) = (ga : Int) - pa + 4 := by omega
  rw [x1] at w1 hp1
  rw [x2] at w2 hp2
  refine ⟨w1, w2, by rw [length_writeAt hp2, length_writeAt hp1], ?_, ?_⟩
  · intro ht
    have part : ∀ k n, k + n ≤ 16 → slice d k n = slice pltHeader k n := by
      intro k n hk; rw [← ht, slice_slice hk, Nat.zero_add]
    have c0 : slice d' 0 2 = [0xff, 0x35] := by
      rw [slice_writeAt_out hp2 (by omega), slice_writeAt_out hp1 (by omega)]; exact part 0 2 (by decide)
    have c1 : slice d' 2 4 = leInt 4 ((ga : Int) - pa + 2) := by
      rw [slice_writeAt_out hp2 (by omega)]; exact slice_writeAt_in hp1 (by simp)
    have c2 : slice d' 6 2 = [0xff, 0x25] := by
      rw [slice_writeAt_out hp2 (by omega), slice_writeAt_out hp1 (by simp)]; exact part 6 2 (by decide)
    have c3 : slice d' 8 4 = leInt 4 ((ga : Int) - pa + 4) := slice_writeAt_in hp2 (by simp)
    have c4 : slice d' 12 4 = [0x90, 0x90, 0x90, 0x90] := by
      rw [slice_writeAt_out hp2 (by simp), slice_writeAt_out hp1 (by simp)]; exact part 12 4 (by decide)
    rw [show 16 = 2 + (4 + (2 + (4 + 4))) from rfl, slice_split d' 0 2, slice_split d' _ 4, slice_split d' _ 2, slice_split d' _ 4]
    simp only [Nat.reduceAdd, Nat.add_assoc] at *
    rw [c0, c1, c2, c3, c4]
    simp [pltHead]
  · intro o n ho
    rw [slice_writeAt_out hp2 (by simp; omega), slice_writeAt_out hp1 (by simp; omega)]

/-! ### All entries -/

/-- the entries are patched independently of one another -/
theorem patchPlt_loop {t : SymbolTable} {pa ga : Nat} {es : List (SymbolRef × Nat)} {pd gd pd' gd' : Bytes}
    (h : foldM' (patchPltEntry t pa ga) (pd, gd) es = .ok (pd', gd')) (hn : (es.map (·.2)).Nodup)
    (hi : ∀ e ∈ es, ∀ s i, t.get e.1 = some s → s.inPlt = some i → e.2 = (i + 3) * 8) :
    pd'.length = pd.length ∧ gd'.length = gd.length ∧
    (∀ o n, (∀ e ∈ es, ∀ i, e.2 = (i + 3) * 8 → o + n ≤ 16 * (i + 1) ∨ 16 * (i + 2) ≤ o) → slice pd' o n = slice pd o n) ∧
    (∀ o n, (∀ e ∈ es, o + n ≤ e.2 ∨ e.2 + 8 ≤ o) → slice gd' o n = slice gd o n) ∧
    ∀ e ∈ es, ∃ s i j, t.get e.1 = some s ∧ s.inPlt = some i ∧ s.relocationOffset = some j ∧ e.2 = (i + 3) * 8 ∧
      EntryDone pa ga i e.2 j pd gd pd' gd' := by
  induction es generalizing pd gd with
  | nil => cases h; simp
  | cons e es ih =>
    obtain ⟨r, off⟩ := e
    rw [foldM'_cons, bind_ok] at h
    obtain ⟨⟨p1, g1⟩, h1, h2⟩ := h
    obtain ⟨s, i, j, hs, hip, hj, F⟩ := patchPltEntry_facts h1
    have hoff := hi (r, off) (by simp) s i hs hip
    simp only at hoff
    rw [List.map_cons, List.nodup_cons] at hn
    obtain ⟨l1, l2, q1, q2, q3⟩ := ih h2 hn.2 fun e he => hi e (by simp [he])
    have dis : ∀ e ∈ es, ∀ k, e.2 = (k + 3) * 8 → k ≠ i := by
      rintro e he k hk rfl
      exact hn.1 (List.mem_map.2 ⟨e, he, by rw [hk, hoff]⟩)
    have disG : ∀ e ∈ es, ∃ k, e.2 = (k + 3) * 8 := by
      intro e he
      obtain ⟨_, k, _, _, _, _, hk, _⟩ := q3 e he
      exact ⟨k, hk⟩
    refine ⟨by rw [l1, F.lenP], by rw [l2, F.lenG], ?_, ?_, ?_⟩
    · intro o n ho
      rw [q1 o n fun e he => ho e (by simp [he]), F.restP o n (ho (r, off) (by simp) i hoff)]
    · intro o n ho
      rw [q2 o n fun e he => ho e (by simp [he]), F.restG o n (ho (r, off) (by simp))]
    · intro e he
      rw [List.mem_cons] at he
      rcases he with rfl | he
      · refine ⟨s, i, j, hs, hip, hj, hoff, F.d1, F.d2, F.addr, ?_, ?_, F.fits⟩
        · intro ht
          rw [q1 _ _ fun e he k hk => ?_, F.code ht]
          have := dis e he k hk
          omega
        · rw [q2 _ _ fun e he => ?_, F.word]
          obtain ⟨k, hk⟩ := disG e he
          have := dis e he k hk
          simp only; omega
      · obtain ⟨s', k, j', hs', hk, hj', hk8, D⟩ := q3 e he
        refine ⟨s', k, j', hs', hk, hj', hk8, D.d1, D.d2, D.addr, ?_, D.word, by rw [← F.lenG]; exact D.fits⟩
        intro ht
        apply D.code
        have := dis e he k hk8
        rw [F.restP _ _ (by omega), ht]

end Dld
