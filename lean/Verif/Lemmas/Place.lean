import Verif.Lemmas.Layout
/-! # Exact addresses inside a segment, and the addresses of chunks -/
namespace Dld

/-- memory taken by the sections with flags `f` -/
def memOf (f : Nat) (l : List Section) : Nat :=
  ((l.filter fun s => s.sh.sh_flags == f).map (·.sh.sh_size)).sum

/-- the room for the headers in the segment with flags `f` -/
def headRoom (hdr f : Nat) (pl : List Section) : Nat :=
  if pl.head?.map (·.sh.sh_flags) = some f then hdr else 0

theorem memOf_append (f : Nat) (a b : List Section) : memOf f (a ++ b) = memOf f a + memOf f b := by
  simp [memOf]

theorem memOf_singleton (f : Nat) (s : Section) :
    memOf f [s] = if s.sh.sh_flags = f then s.sh.sh_size else 0 := by
  unfold memOf
  by_cases h : s.sh.sh_flags = f
  · simp [h]
  · have : (s.sh.sh_flags == f) = false := by simpa using h
    simp [this, h]

theorem memOf_eq_zero {f : Nat} {l : List Section} (h : ∀ t ∈ l, t.sh.sh_flags ≠ f) : memOf f l = 0 := by
  unfold memOf
  have : l.filter (fun s => s.sh.sh_flags == f) = [] := by
    rw [List.filter_eq_nil_iff]; intro t ht; simpa using h t ht
  rw [this]; rfl

theorem headRoom_append {hdr f : Nat} {pl l : List Section} (h : pl ≠ []) : headRoom hdr f (pl ++ l) = headRoom hdr f pl := by
  cases pl with
  | nil => exact absurd rfl h
  | cons a pl => rfl

/-- the chunks of an allocated section have consecutive addresses starting at the section's -/
def ChunksPlaced (s : Section) : Prop := s.chunks = Section.setChunkAddrs s.sh.sh_addr s.chunks

theorem setChunkAddrs_idem (base : Nat) (cs : List Chunk) :
    Section.setChunkAddrs base (Section.setChunkAddrs base cs) = Section.setChunkAddrs base cs := by
  induction cs generalizing base with
  | nil => rfl
  | cons c cs ih => simp [Section.setChunkAddrs, ih]

/-- where allocated sections and their chunks lie -/
structure MInv (v0 hdr : Nat) (st : LayoutState) (pl : List Section) : Prop where
  cur : ∀ ph, st.cur = some ph → ph.p_vaddr % PAGE_ALIGNMENT = 0 ∧
    st.pVaddr = ph.p_vaddr + headRoom hdr st.flags pl + memOf st.flags pl
  secs : ∀ a s b, pl = a ++ s :: b → s.alloc = true → ∃ v, v % PAGE_ALIGNMENT = 0 ∧
    s.sh.sh_addr = v + headRoom hdr s.sh.sh_flags pl + memOf s.sh.sh_flags a
  chunks : ∀ s ∈ pl, s.alloc = true → ChunksPlaced s
  head : ∀ s ∈ pl.head?, s.sh.sh_offset = hdr ∧ s.alloc = true ∧ s.sh.sh_addr = roundTo v0 PAGE_ALIGNMENT + hdr

theorem placeSection_chunks {v0 hdr : Nat} {st : LayoutState} {pl : List Section} {s : Section} (hI : LInv v0 hdr st pl)
    (ha : s.alloc = true) : ChunksPlaced (placeSection st s).2 := by
  have hc := hI.cur
  unfold Section.alloc at ha
  unfold ChunksPlaced placeSection loadHeader placeInFile Section.setAddress
  simp only
  split
  · simp only [ha, if_true]
    exact (setChunkAddrs_idem _ _).symm
  · next hf =>
    have hf : s.sh.sh_flags = st.flags := by simpa using hf
    rw [← hf, ha] at hc
    split
    · next h => rw [h] at hc; cases hc
    · exact (setChunkAddrs_idem _ _).symm

theorem MInv.step {v0 hdr : Nat} {isInterp : SectionHeader → Bool} {st : LayoutState}
    {pl : List Section} {s : Section} (hI : LInv v0 hdr st pl) (hM : MInv v0 hdr st pl)
    (hfirst : pl = [] → s.alloc = true)
    (hgrp : s.sh.sh_flags ≠ st.flags → ∀ t ∈ pl, t.sh.sh_flags ≠ s.sh.sh_flags) :
    MInv v0 hdr (layoutStep isInterp st s).1 (pl ++ [(layoutStep isInterp st s).2]) := by
  have hcore := placeSection_core st s
  have hx : st.extra = none ∨ st.fileOffset = 0 := by
    by_cases hp : pl = []
    · right; rw [hI.start hp]
    · exact .inl (hI.going hp).1
  rw [layoutStep_eq]
  simp only
  have hold : ∀ a t b, pl = a ++ t :: b → t.alloc = true → ∃ v, v % PAGE_ALIGNMENT = 0 ∧
      t.sh.sh_addr = v + headRoom hdr t.sh.sh_flags (pl ++ [(placeSection st s).2]) + memOf t.sh.sh_flags a := by
    intro a t b h ht
    obtain ⟨v, hv, he⟩ := hM.secs a t b h ht
    exact ⟨v, hv, by rw [headRoom_append (by rw [h]; simp)]; exact he⟩
  have hchunks : ∀ t ∈ pl ++ [(placeSection st s).2], t.alloc = true → ChunksPlaced t := by
    intro t ht hal
    rcases List.mem_append.1 ht with h | h
    · exact hM.chunks t h hal
    · rw [List.mem_singleton] at h
      subst h
      exact placeSection_chunks hI (by rw [← hcore.alloc]; exact hal)
  by_cases hf : s.sh.sh_flags = st.flags
  · have hp : pl ≠ [] := by
      intro hp
      have := hfirst hp
      rw [hI.start hp] at hf
      simp only at hf
      rw [Section.alloc, hf] at this
      revert this; decide
    have hhead : ∀ t ∈ (pl ++ [(placeSection st s).2]).head?, t.sh.sh_offset = hdr ∧ t.alloc = true ∧ t.sh.sh_addr = roundTo v0 PAGE_ALIGNMENT + hdr := by
      intro t ht
      apply hM.head
      cases pl with
      | nil => exact absurd rfl hp
      | cons a pl => simpa using ht
    cases hc : st.cur with
    | none =>
      have h1 := placeSection_same_none hf hc
      have hna : s.alloc = false := by
        have := hI.cur
        rw [hc, ← hf] at this
        exact this.symm
      refine ⟨?_, ?_, hchunks, hhead⟩
      · intro ph hph
        simp only [h1.1, hc] at hph; cases hph
      · intro a t b h ht
        rcases snoc_split h with ⟨rfl, rfl, _⟩ | ⟨b', _, h⟩
        · rw [hcore.alloc, hna] at ht; cases ht
        · exact hold a t b' h ht
    | some ph =>
      have h1 := placeSection_same hf hc
      obtain ⟨hv, hcur⟩ := hM.cur ph hc
      refine ⟨?_, ?_, hchunks, hhead⟩
      · intro q hq
        simp only [h1.1, Option.some.injEq] at hq
        subst hq
        simp only [h1.1]
        rw [headRoom_append hp, memOf_append, memOf_singleton, hcore.flags, if_pos hf, hcore.size]
        exact ⟨hv, by omega⟩
      · intro a t b h ht
        rcases snoc_split h with ⟨rfl, rfl, _⟩ | ⟨b', _, h⟩
        · refine ⟨ph.p_vaddr, hv, ?_⟩
          rw [h1.2.2, hcore.flags, headRoom_append hp, hf]
          exact hcur
        · exact hold a t b' h ht
  · cases ha : s.alloc with
    | false =>
      have hp : pl ≠ [] := fun hp => by rw [hfirst hp] at ha; cases ha
      have h1 := placeSection_plain hf ha
      refine ⟨?_, ?_, hchunks, ?_⟩
      · intro ph hph
        simp only [h1.1] at hph; cases hph
      · intro a t b h ht
        rcases snoc_split h with ⟨rfl, rfl, _⟩ | ⟨b', _, h⟩
        · rw [hcore.alloc, ha] at ht; cases ht
        · exact hold a t b' h ht
      · intro t ht
        apply hM.head
        cases pl with
        | nil => exact absurd rfl hp
        | cons a pl => simpa using ht
    | true =>
      have h1 := placeSection_new hx hf ha
      have hroom : headRoom hdr s.sh.sh_flags (pl ++ [(placeSection st s).2]) = st.extra.getD 0 := by
        by_cases hp : pl = []
        · subst hp
          unfold headRoom
          simp [hcore.flags]
          rw [hI.start rfl]; rfl
        · rw [headRoom_append hp, (hI.going hp).1]
          unfold headRoom
          cases pl with
          | nil => exact absurd rfl hp
          | cons t pl =>
            have := hgrp hf t (by simp)
            simp [this]
      refine ⟨?_, ?_, hchunks, ?_⟩
      · intro q hq
        simp only [h1.1, Option.some.injEq] at hq
        subst hq
        simp only [h1.1]
        rw [hroom, memOf_append, memOf_singleton, hcore.flags, if_pos rfl, hcore.size, memOf_eq_zero (hgrp hf)]
        exact ⟨roundTo_page_mod _, by omega⟩
      · intro a t b h ht
        rcases snoc_split h with ⟨rfl, rfl, _⟩ | ⟨b', _, h⟩
        · refine ⟨roundTo st.pVaddr PAGE_ALIGNMENT, roundTo_page_mod _, ?_⟩
          rw [h1.2.1, hcore.flags, hroom, memOf_eq_zero (hgrp hf)]; omega
        · exact hold a t b' h ht
      · intro t ht
        cases pl with
        | nil =>
          simp only [List.nil_append, List.head?_cons, Option.mem_def, Option.some.injEq] at ht
          rw [← ht, h1.2.2, hcore.alloc, ha, h1.2.1, hI.start rfl]
          exact ⟨by simp [roundTo], rfl, by simp⟩
        | cons a pl => exact hM.head t (by simpa using ht)

theorem MInv.loop {v0 hdr : Nat} {isInterp : SectionHeader → Bool} {l : List Section} :
    ∀ {st : LayoutState} {pl : List Section}, LInv v0 hdr st pl → MInv v0 hdr st pl →
    (pl = [] → ∀ s ∈ l.head?, s.alloc = true) →
    ((pl ++ l).map (·.sh.sh_flags)).Pairwise flagsLe →
    MInv v0 hdr (layoutLoop isInterp st l).1 (pl ++ (layoutLoop isInterp st l).2) := by
  induction l with
  | nil => intro st pl _ hM _ _; simpa [layoutLoop] using hM
  | cons s l ih =>
    intro st pl hI hM hfirst hs
    have hg := fun hne => FlagsSorted.group hs hI.flags hne
    have h1 := hI.step isInterp (s := s) (fun hp => hfirst hp s (by simp)) hg
    have h2 := ih h1 (hM.step hI (fun hp => hfirst hp s (by simp)) hg) (fun h => by simp at h) (by
      simpa [(layoutStep_core isInterp st s).flags] using hs)
    simpa [layoutLoop, List.append_assoc] using h2

theorem Ready.minv {isInterp : SectionHeader → Bool} {phentsize v0 : Nat} {secs : List Section}
    (h : Ready secs) :
    MInv v0 (countProgramHeaders secs * phentsize + sizeofHeader)
      (finalState isInterp phentsize v0 secs).1 (finalState isInterp phentsize v0 secs).2 := by
  have := MInv.loop (isInterp := isInterp)
    (LInv.init v0 (countProgramHeaders secs * phentsize + sizeofHeader)) ⟨by simp, by simp, by simp, by simp⟩
    (l := secs.drop 1) (fun _ => h.head) (by simpa using h.sorted)
  rw [List.nil_append] at this
  exact this

end Dld
