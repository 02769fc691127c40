import Verif.Spec.Runtime
import Verif.Props.Refs
/-! # Reading and writing the memory of a process -/
namespace Dld
open Spec

theorem mapM_option {α β : Type} {f : α → Option β} {l : List α} {bs : List β} : l.mapM f = some bs ↔ l.map f = bs.map some := by
  induction l generalizing bs with
  | nil => cases bs <;> simp
  | cons a l ih =>
    rw [List.mapM_cons]
    cases bs with
    | nil =>
      cases f a with
      | none => simp
      | some b => cases hl : l.mapM f with
        | none => simp [hl]
        | some c => simp [hl]
    | cons b bs =>
      cases hf : f a with
      | none => simp [hf]
      | some b' =>
        cases hl : l.mapM f with
        | none =>
          have : ¬ l.map f = bs.map some := fun e => by rw [← ih, hl] at e; cases e
          simp [hf, hl, this]
        | some c =>
          have := ih.1 hl
          simp only [List.map_cons, hf, List.cons.injEq, Option.some.injEq, this, bind, Option.bind, pure, hl]
          constructor
          · rintro ⟨rfl, rfl⟩; exact ⟨rfl, rfl⟩
          · rintro ⟨rfl, h⟩
            exact ⟨rfl, (List.map_inj_right (fun _ _ e => Option.some.inj e)).1 h⟩

theorem readMem_iff {m : Mem} {a n : Nat} {bs : List UInt8} :
    readMem m a n = some bs ↔ bs.length = n ∧ ∀ i, i < n → m (a + i) = bs[i]? := by
  unfold readMem
  rw [mapM_option]
  constructor
  · intro h
    have hl := congrArg List.length h
    simp only [List.length_map, List.length_range] at hl
    refine ⟨hl.symm, fun i hi => ?_⟩
    have := congrArg (·[i]?) h
    simp only [List.getElem?_map, List.getElem?_range hi, Option.map_some] at this
    rw [List.getElem?_eq_getElem (by omega)] at this ⊢
    exact Option.some.inj this
  · rintro ⟨hl, h⟩
    apply List.ext_getElem?
    intro i
    rw [List.getElem?_map, List.getElem?_map]
    by_cases hi : i < n
    · rw [List.getElem?_range hi, Option.map_some, h i hi, List.getElem?_eq_getElem (by omega)]; rfl
    · rw [List.getElem?_eq_none (by simp; omega), List.getElem?_eq_none (by omega)]; rfl

theorem readMem_memory {file : Bytes} {a n : Nat} {bs : Bytes} (h : memory file a n = bs.map some) : readMem (memAt file) a n = some bs :=
  mapM_option.2 h

/-- a part of what was read -/
theorem readMem_sub {m : Mem} {a n : Nat} {bs : List UInt8} (h : readMem m a n = some bs) {i k : Nat} (hi : i + k ≤ n) :
    readMem m (a + i) k = some (slice bs i k) := by
  rw [readMem_iff] at h ⊢
  obtain ⟨hl, h⟩ := h
  refine ⟨by simp [slice]; omega, fun j hj => ?_⟩
  rw [Nat.add_assoc, h (i + j) (by omega)]
  simp [slice, List.getElem?_take, List.getElem?_drop, hj]

theorem readMem_congr {m m' : Mem} {a n : Nat} (h : ∀ x, a ≤ x → x < a + n → m' x = m x) : readMem m' a n = readMem m a n := by
  have key : ∀ {m m' : Mem} {bs}, (∀ x, a ≤ x → x < a + n → m' x = m x) → readMem m a n = some bs → readMem m' a n = some bs := by
    intro m m' bs h hb
    rw [readMem_iff] at hb ⊢
    exact ⟨hb.1, fun i hi => by rw [h _ (by omega) (by omega), hb.2 i hi]⟩
  cases hb : readMem m a n with
  | some bs => exact key h hb
  | none =>
    cases hb' : readMem m' a n with
    | none => rfl
    | some bs => rw [key (fun x h1 h2 => (h x h1 h2).symm) hb'] at hb; cases hb

theorem le64_length (n : Nat) : (le64 n).length = 8 := by simp [le64]

theorem fromLe_le64 {n : Nat} (h : n < 2 ^ 64) : fromLe (le64 n) = n := by
  simp only [le64, List.range, List.range.loop, List.map_cons, List.map_nil, fromLe, UInt8.toNat_ofNat']
  omega

theorem writeMem_some {file : Bytes} {m m' : Mem} {a : Nat} {bs : List UInt8} (h : writeMem file m a bs = some m') :
    (∀ x, ¬ (a ≤ x ∧ x < a + bs.length) → m' x = m x) ∧ readMem m' a bs.length = some bs ∧ ∀ x, writableAt file x = false → m' x = m x := by
  unfold writeMem at h
  split at h
  · next hw =>
    cases h
    refine ⟨fun x hx => by simp only [if_neg hx], ?_, fun x hx => ?_⟩
    · rw [readMem_iff]
      refine ⟨rfl, fun i hi => ?_⟩
      rw [if_pos ⟨by omega, by omega⟩]
      congr 1; omega
    · simp only
      rw [if_neg]
      rintro ⟨h1, h2⟩
      have := List.all_eq_true.1 hw (x - a) (List.mem_range.2 (by omega))
      rw [show a + (x - a) = x by omega, hx] at this
      cases this
  · cases h

theorem writeMem_ok {file : Bytes} {m : Mem} {a : Nat} {bs : List UInt8} (h : ∀ i, i < bs.length → writableAt file (a + i) = true) :
    ∃ m', writeMem file m a bs = some m' := by
  unfold writeMem
  rw [if_pos (List.all_eq_true.2 fun i hi => h i (List.mem_range.1 hi))]
  exact ⟨_, rfl⟩

/-- how many bytes a relocation writes at most -/
def relWidth (file : Bytes) (r : ERela) : Nat := if r.type = 5 then ((loadedSym file r.sym).map (·.1.size)).getD 0 else 8

theorem relocateMem_frame {file : Bytes} {libs : Libs} {m m' : Mem} {r : ERela} (h : relocateMem file libs m r = some m') :
    (∀ x, ¬ (r.offset ≤ x ∧ x < r.offset + relWidth file r) → m' x = m x) ∧ ∀ x, writableAt file x = false → m' x = m x := by
  unfold relocateMem at h
  split at h
  · next ht =>
    rw [Option.bind_eq_bind, Option.bind_eq_some_iff] at h
    obtain ⟨a, _, h⟩ := h
    obtain ⟨h1, _, h3⟩ := writeMem_some h
    rw [le64_length] at h1
    unfold relWidth
    rw [if_neg (by omega)]
    exact ⟨h1, h3⟩
  · split at h
    · next ht =>
      rw [Option.bind_eq_bind, Option.bind_eq_some_iff] at h
      obtain ⟨a, ha, h⟩ := h
      obtain ⟨h1, _, h3⟩ := writeMem_some h
      refine ⟨fun x hx => h1 x fun hx' => hx ⟨hx'.1, Nat.lt_of_lt_of_le hx'.2 ?_⟩, h3⟩
      unfold relWidth
      rw [if_pos ht, ha, List.length_take]
      simp only [Option.map_some, Option.getD_some]
      omega
    · cases h

theorem relocateMem_word {file : Bytes} {libs : Libs} {m m' : Mem} {r : ERela} (ht : r.type = 6 ∨ r.type = 7)
    (h : relocateMem file libs m r = some m') : ∃ a, boundTo file libs r.sym = some a ∧ readMem m' r.offset 8 = some (le64 a) := by
  unfold relocateMem at h
  rw [if_pos ht, Option.bind_eq_bind, Option.bind_eq_some_iff] at h
  obtain ⟨a, ha, h⟩ := h
  obtain ⟨_, h2, _⟩ := writeMem_some h
  rw [le64_length] at h2
  exact ⟨a, ha, h2⟩

theorem relocateAll_frame {file : Bytes} {libs : Libs} {rs : List ERela} : ∀ {m m' : Mem}, rs.foldlM (relocateMem file libs) m = some m' →
    (∀ x, (∀ r ∈ rs, ¬ (r.offset ≤ x ∧ x < r.offset + relWidth file r)) → m' x = m x) ∧ ∀ x, writableAt file x = false → m' x = m x := by
  induction rs with
  | nil => intro m m' h; cases h; exact ⟨fun _ _ => rfl, fun _ _ => rfl⟩
  | cons r rs ih =>
    intro m m' h
    rw [List.foldlM_cons, Option.bind_eq_bind, Option.bind_eq_some_iff] at h
    obtain ⟨m1, h1, h⟩ := h
    obtain ⟨f1, f2⟩ := relocateMem_frame h1
    obtain ⟨g1, g2⟩ := ih h
    exact ⟨fun x hx => (g1 x fun r hr => hx r (.tail _ hr)).trans (f1 x (hx r (.head _))), fun x hx => (g2 x hx).trans (f2 x hx)⟩

/-- the word that a relocation writes, if no later one writes there -/
theorem relocateAll_word {file : Bytes} {libs : Libs} {pre post : List ERela} {r : ERela} {m m' : Mem} (ht : r.type = 6 ∨ r.type = 7)
    (h : (pre ++ r :: post).foldlM (relocateMem file libs) m = some m')
    (hd : ∀ r' ∈ post, r'.offset + relWidth file r' ≤ r.offset ∨ r.offset + 8 ≤ r'.offset) :
    ∃ a, boundTo file libs r.sym = some a ∧ readMem m' r.offset 8 = some (le64 a) := by
  rw [List.foldlM_append, Option.bind_eq_bind, Option.bind_eq_some_iff] at h
  obtain ⟨m1, _, h⟩ := h
  rw [List.foldlM_cons, Option.bind_eq_bind, Option.bind_eq_some_iff] at h
  obtain ⟨m2, h2, h⟩ := h
  obtain ⟨a, ha, hr⟩ := relocateMem_word ht h2
  refine ⟨a, ha, ?_⟩
  rw [← hr]
  apply readMem_congr
  intro x hx1 hx2
  refine (relocateAll_frame h).1 x fun r' hr' => ?_
  have := hd r' hr'
  omega

theorem field_lt (img : Bytes) (o k : Nat) : field img o k < 256 ^ k := by
  have key : ∀ l : List UInt8, fromLe l < 256 ^ l.length := by
    intro l
    induction l with
    | nil => simp [fromLe]
    | cons b l ih =>
      have := b.toNat_lt
      simp only [fromLe, List.length_cons, Nat.pow_succ]
      omega
  refine Nat.lt_of_lt_of_le (key _) (Nat.pow_le_pow_right (by decide) ?_)
  simp [slice]; omega

theorem boundTo_small {file : Bytes} {libs : Libs} {k a : Nat} (h : boundTo file libs k = some a) : a < 2 ^ 64 := by
  unfold boundTo at h
  rw [Option.bind_eq_bind, Option.bind_eq_some_iff] at h
  obtain ⟨⟨s, n⟩, hs, h⟩ := h
  simp only at h
  split at h
  · cases h
    unfold loadedSym at hs
    simp only [Option.bind_eq_bind, Option.bind_eq_some_iff, Option.some.injEq, Prod.mk.injEq] at hs
    obtain ⟨_, _, img, _, _, _, _, _, _, _, _, _, rfl, _⟩ := hs
    exact field_lt _ _ _
  · exact libs.small n a h

/-! ### Instructions -/

theorem field_congr {img img' : Bytes} {off off' k : Nat} (h : ∀ i, i < k → img[off + i]? = img'[off' + i]?) : field img off k = field img' off' k := by
  unfold field; rw [slice_congr h]

/-- an instruction is decoded from its own bytes only -/
theorem decodeInstr_own {img img' : Bytes} {off off' : Nat} {addr : Int} {ins : Instr} {k : Nat} (h : decodeInstr img off addr = some (ins, k))
    (hb : ∀ i, i < k → img[off + i]? = img'[off' + i]?) : decodeInstr img' off' addr = some (ins, k) ∧ 0 < k ∧ k ≤ 7 := by
  have hlen : ∀ i, i < k → i < img.length - off → off' + i < img'.length := by
    intro i hi hl
    have := hb i hi
    rw [List.getElem?_eq_getElem (by omega)] at this
    exact (List.getElem?_eq_some_iff.1 this.symm).1
  have f1 : ∀ i, i < k → field img (off + i) 1 = field img' (off' + i) 1 := fun i hi => field_congr fun j hj => by
    rw [show off + i + j = off + (i + j) by omega, show off' + i + j = off' + (i + j) by omega]; exact hb _ (by omega)
  have f4 : ∀ i, i + 4 ≤ k → sfield img (off + i) 4 = sfield img' (off' + i) 4 := fun i hi => by
    have : field img (off + i) 4 = field img' (off' + i) 4 := field_congr fun j hj => by
      rw [show off + i + j = off + (i + j) by omega, show off' + i + j = off' + (i + j) by omega]; exact hb _ (by omega)
    unfold sfield
    rw [this]
  have hk := decodeInstr_len h
  have h0 := h
  unfold decodeInstr at h ⊢
  simp only at h ⊢
  have hz : 0 < k := by
    split at h
    · split at h
      · split at h
        · cases h
        · split at h
          · cases h; decide
          · split at h
            · cases h; decide
            · cases h
      · cases h
    · split at h
      · split at h
        · split at h
          · cases h
          · split at h
            · cases h; decide
            · split at h
              · cases h; decide
              · split at h
                · cases h; decide
                · cases h
        · cases h
      · repeat' split at h
        all_goals first
          | (cases h; done)
          | (cases h; decide)
  have g0 : field img off 1 = field img' off' 1 := f1 0 hz
  simp only [Nat.add_zero] at h ⊢
  simp only [← g0]
  split at h
  · next hc =>
    rw [if_pos hc]
    split at h
    · next r hr =>
      split at h
      · cases h
      · have hk7 : k = 7 := by
          split at h
          · cases h; rfl
          · split at h
            · cases h; rfl
            · cases h
        subst hk7
        rw [← f1 2 (by omega), hr]
        simp only
        have := hlen 6 (by omega) (by omega)
        rw [if_neg (by omega), ← f1 1 (by omega), ← f4 3 (by omega)]
        exact ⟨h, by omega, by omega⟩
    · cases h
  · next hc =>
    rw [if_neg hc]
    split at h
    · next hf =>
      rw [if_pos hf]
      split at h
      · next r hr =>
        split at h
        · cases h
        · have hk6 : k = 6 := by
            split at h
            · cases h; rfl
            · split at h
              · cases h; rfl
              · split at h
                · cases h; rfl
                · cases h
          subst hk6
          rw [← f1 1 (by omega), hr]
          simp only
          have := hlen 5 (by omega) (by omega)
          rw [if_neg (by omega), ← f4 2 (by omega)]
          exact ⟨h, by omega, by omega⟩
      · cases h
    · next hf =>
      rw [if_neg hf]
      split at h
      · cases h
      · have := hlen 0 hz (by omega)
        rw [if_neg (by omega)]
        split at h
        · next h9 =>
          rw [if_pos h9]
          cases h
          exact ⟨rfl, by omega, by omega⟩
        · next h9 =>
          rw [if_neg h9]
          split at h
          · cases h
          · have hk5 : k = 5 := by
              split at h
              · cases h; rfl
              · split at h
                · cases h; rfl
                · split at h
                  · cases h; rfl
                  · cases h
            subst hk5
            have := hlen 4 (by omega) (by omega)
            rw [if_neg (by omega), ← f4 1 (by omega)]
            exact ⟨h, by omega, by omega⟩

theorem window_get {m : Mem} {a k i : Nat} (hk : k ≤ 15) (h : ∀ j, j < k → (m (a + j)).isSome = true) (hi : i < k) :
    ((((List.range 15).map fun i => m (a + i)).takeWhile Option.isSome).map fun b => b.getD 0)[i]? = m (a + i) := by
  have hsp : (List.range 15).map (fun i => m (a + i)) = (List.range k).map (fun i => m (a + i)) ++ ((List.range 15).drop k).map (fun i => m (a + i)) := by
    rw [← List.map_append]
    congr 1
    conv => lhs; rw [← List.take_append_drop k (List.range 15)]
    rw [List.take_range, Nat.min_eq_left hk]
  rw [hsp, List.takeWhile_append_of_pos (by
    intro x hx
    obtain ⟨j, hj, rfl⟩ := List.mem_map.1 hx
    exact h j (List.mem_range.1 hj))]
  rw [List.map_append, List.getElem?_append_left (by simpa using hi), List.map_map, List.getElem?_map, List.getElem?_range hi]
  obtain ⟨b, hb⟩ := Option.isSome_iff_exists.1 (h i hi)
  simp [hb]

/-- an instruction of a section is what a process finds in memory if the memory holds its bytes -/
theorem instrAt_of {m : Mem} {img : Bytes} {off a : Nat} {ins : Instr} {k : Nat} (h : decodeInstr img off (a : Int) = some (ins, k))
    (hm : ∀ i, i < k → m (a + i) = img[off + i]?) : instrAt m a = some ins := by
  have hl := decodeInstr_len h
  have hk := (decodeInstr_own h (fun _ _ => rfl)).2.2
  have hs : ∀ j, j < k → (m (a + j)).isSome = true := fun j hj => by rw [hm j hj, List.getElem?_eq_getElem (by omega)]; rfl
  unfold instrAt
  rw [(decodeInstr_own h (off' := 0) (fun i hi => by rw [Nat.zero_add, window_get (by omega) hs hi, hm i hi])).1]
  rfl

theorem decodeInstr_operand {img : Bytes} {p : Nat} {a : Int} {ins : Instr} {k : Nat} {ea : Int} (h : decodeInstr img p a = some (ins, k))
    (he : ins.operand = some ea) : 4 ≤ k ∧ ea = a + k + sfield img (p + k - 4) 4 := by
  unfold decodeInstr at h
  simp only at h
  split at h
  · split at h
    · split at h
      · cases h
      · split at h
        · cases h; cases he; exact ⟨by decide, rfl⟩
        · split at h
          · cases h; cases he
          · cases h
    · cases h
  · split at h
    · split at h
      · split at h
        · cases h
        · split at h
          · cases h; cases he; exact ⟨by decide, rfl⟩
          · split at h
            · cases h; cases he; exact ⟨by decide, rfl⟩
            · split at h
              · cases h; cases he
              · cases h
      · cases h
    · split at h
      · cases h
      · split at h
        · cases h; cases he
        · split at h
          · cases h
          · split at h
            · cases h; cases he
            · split at h
              · cases h; cases he
              · split at h
                · cases h; cases he
                · cases h

theorem decodeInstr_target {img : Bytes} {p : Nat} {a : Int} {ins : Instr} {k : Nat} {t : Int} (h : decodeInstr img p a = some (ins, k))
    (he : ins.target = some t) : 4 ≤ k ∧ t = a + k + sfield img (p + k - 4) 4 := by
  unfold decodeInstr at h
  simp only at h
  split at h
  · split at h
    · split at h
      · cases h
      · split at h
        · cases h; cases he
        · split at h
          · cases h; cases he
          · cases h
    · cases h
  · split at h
    · split at h
      · split at h
        · cases h
        · split at h
          · cases h; cases he
          · split at h
            · cases h; cases he
            · split at h
              · cases h; cases he
              · cases h
      · cases h
    · split at h
      · cases h
      · split at h
        · cases h; cases he
        · split at h
          · cases h
          · split at h
            · cases h; cases he; exact ⟨by decide, rfl⟩
            · split at h
              · cases h; cases he; exact ⟨by decide, rfl⟩
              · split at h
                · cases h; cases he
                · cases h

/-! ### All relocations -/

theorem relocateMem_ok {file : Bytes} {libs : Libs} {m : Mem} {r : ERela}
    (h : (r.type = 6 ∨ r.type = 7) ∧ (∃ a, boundTo file libs r.sym = some a) ∧ (∀ i, i < 8 → writableAt file (r.offset + i) = true) ∨
      r.type = 5 ∧ ∃ s n, loadedSym file r.sym = some (s, n) ∧ ∀ i, i < s.size → writableAt file (r.offset + i) = true) :
    ∃ m', relocateMem file libs m r = some m' := by
  rcases h with ⟨ht, ⟨a, ha⟩, hw⟩ | ⟨ht, s, n, hs, hw⟩
  · obtain ⟨m', h⟩ := writeMem_ok (file := file) (m := m) (a := r.offset) (bs := le64 a) (by rw [le64_length]; exact hw)
    exact ⟨m', by unfold relocateMem; rw [if_pos ht, ha]; exact h⟩
  · obtain ⟨m', h⟩ := writeMem_ok (file := file) (m := m) (a := r.offset) (bs := (libs.image n).take s.size)
      fun i hi => hw i (by rw [List.length_take] at hi; omega)
    exact ⟨m', by unfold relocateMem; rw [if_neg (by omega), if_pos ht, hs]; exact h⟩

theorem relocateAll_exists {file : Bytes} {libs : Libs} {rs : List ERela} : ∀ {m : Mem},
    (∀ r ∈ rs, (r.type = 6 ∨ r.type = 7) ∧ (∃ a, boundTo file libs r.sym = some a) ∧ (∀ i, i < 8 → writableAt file (r.offset + i) = true) ∨
      r.type = 5 ∧ ∃ s n, loadedSym file r.sym = some (s, n) ∧ ∀ i, i < s.size → writableAt file (r.offset + i) = true) →
    ∃ m', rs.foldlM (relocateMem file libs) m = some m' := by
  induction rs with
  | nil => intro m _; exact ⟨m, rfl⟩
  | cons r rs ih =>
    intro m h
    obtain ⟨m1, h1⟩ := relocateMem_ok (m := m) (h r (.head _))
    obtain ⟨m', h'⟩ := ih (m := m1) fun r' hr' => h r' (.tail _ hr')
    exact ⟨m', by rw [List.foldlM_cons, h1]; exact h'⟩

/-- the bytes that a copy writes, if no later relocation writes there -/
theorem relocateAll_copy {file : Bytes} {libs : Libs} {pre post : List ERela} {r : ERela} {m m' : Mem} (ht : r.type = 5)
    (h : (pre ++ r :: post).foldlM (relocateMem file libs) m = some m') :
    ∃ s n, loadedSym file r.sym = some (s, n) ∧ (∀ i, i < ((libs.image n).take s.size).length → writableAt file (r.offset + i) = true) ∧
      ((∀ r' ∈ post, r'.offset + relWidth file r' ≤ r.offset ∨ r.offset + relWidth file r ≤ r'.offset) →
        readMem m' r.offset ((libs.image n).take s.size).length = some ((libs.image n).take s.size)) := by
  rw [List.foldlM_append, Option.bind_eq_bind, Option.bind_eq_some_iff] at h
  obtain ⟨m1, _, h⟩ := h
  rw [List.foldlM_cons, Option.bind_eq_bind, Option.bind_eq_some_iff] at h
  obtain ⟨m2, h2, h⟩ := h
  unfold relocateMem at h2
  rw [if_neg (by omega), if_pos ht, Option.bind_eq_bind, Option.bind_eq_some_iff] at h2
  obtain ⟨⟨s, n⟩, hs, h2⟩ := h2
  have hw : relWidth file r = s.size := by unfold relWidth; rw [if_pos ht, hs]; rfl
  obtain ⟨_, hr, _⟩ := writeMem_some h2
  refine ⟨s, n, hs, ?_, ?_⟩
  · intro i hi
    simp only at h2
    unfold writeMem at h2
    split at h2
    · next hw => exact List.all_eq_true.1 hw i (List.mem_range.2 hi)
    · cases h2
  · intro hd
    rw [← hr]
    apply readMem_congr
    intro x hx1 hx2
    refine (relocateAll_frame h).1 x fun r' hr' => ?_
    have := hd r' hr'
    rw [List.length_take] at hx2
    omega

end Dld
