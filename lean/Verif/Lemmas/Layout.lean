import Verif.Model.Layout
import Verif.Lemmas.Sort
/-! # Lemmas about section order and the layout loop -/
namespace Dld

/-! ### `round_to` -/

theorem le_roundTo (v m : Nat) : v ≤ roundTo v m := by
  unfold roundTo; split <;> simp

theorem roundTo_mod (v m : Nat) : roundTo v m % m = 0 ∨ m = 0 := by
  unfold roundTo
  split
  · next h => exact .inr h
  · next h =>
    left
    simp only
    have hlt := Nat.mod_lt v (Nat.pos_of_ne_zero h)
    have hdiv := Nat.div_add_mod v m
    split
    · have : v + (m - v % m) = m * (v / m + 1) := by rw [Nat.mul_add, Nat.mul_one]; omega
      rw [this, Nat.mul_mod_right]
    · simp; omega

theorem roundTo_page_mod (v : Nat) : roundTo v PAGE_ALIGNMENT % PAGE_ALIGNMENT = 0 := by
  rcases roundTo_mod v PAGE_ALIGNMENT with h | h
  · exact h
  · cases h

theorem roundTo_of_mod {v m : Nat} (h : v % m = 0) : roundTo v m = v := by
  unfold roundTo; split <;> simp [h]

/-! ### The order of sections -/

/-- the order of flags: flag-less last -/
def flagsLe (a b : Nat) : Prop := b = 0 ∨ (a ≠ 0 ∧ a ≤ b)

theorem sectionLe_iff {a b : Section} : sectionLe a b = true ↔
    (a.sh.sh_flags ≠ b.sh.sh_flags ∧ flagsLe a.sh.sh_flags b.sh.sh_flags) ∨
    (a.sh.sh_flags = b.sh.sh_flags ∧ b.sh.sh_addralign ≤ a.sh.sh_addralign) := by
  unfold sectionLe sectionCmp flagsLe
  generalize a.sh.sh_flags = x
  generalize b.sh.sh_flags = y
  generalize a.sh.sh_addralign = p
  generalize b.sh.sh_addralign = q
  rcases Nat.lt_trichotomy x y with h | h | h
  · rw [Nat.compare_eq_lt.2 h]
    simp only
    split
    · simp; omega
    · rw [if_neg (by omega)]; simp; omega
  · subst h
    rw [Nat.compare_eq_eq.2 rfl]
    simp only
    rcases Nat.lt_trichotomy p q with g | g | g
    · rw [Nat.compare_eq_lt.2 g]; simp [Ordering.swap]; omega
    · subst g; rw [Nat.compare_eq_eq.2 rfl]; simp [Ordering.swap]
    · rw [Nat.compare_eq_gt.2 g]; simp [Ordering.swap]; omega
  · rw [Nat.compare_eq_gt.2 h]
    simp only
    rw [if_neg (by omega)]
    split
    · next h0 => subst h0; simp; omega
    · simp; omega

theorem flagsLe_total (a b : Nat) : flagsLe a b ∨ flagsLe b a := by unfold flagsLe; omega

theorem flagsLe_trans {a b c : Nat} (h1 : flagsLe a b) (h2 : flagsLe b c) : flagsLe a c := by
  unfold flagsLe at *; omega

theorem flagsLe_antisymm {a b : Nat} (h1 : flagsLe a b) (h2 : flagsLe b a) : a = b := by
  unfold flagsLe at *; omega

theorem flagsLe_refl (a : Nat) : flagsLe a a := by unfold flagsLe; omega

theorem sectionLe_total (a b : Section) : sectionLe a b = true ∨ sectionLe b a = true := by
  rw [sectionLe_iff, sectionLe_iff]
  unfold flagsLe; omega

theorem sectionLe_trans (a b c : Section) (h1 : sectionLe a b = true) (h2 : sectionLe b c = true) :
    sectionLe a c = true := by
  rw [sectionLe_iff] at *
  unfold flagsLe at *
  omega

theorem sectionLe_flags {a b : Section} (h : sectionLe a b = true) :
    flagsLe a.sh.sh_flags b.sh.sh_flags := by
  rw [sectionLe_iff] at h
  rcases h with h | h
  · exact h.2
  · rw [h.1]; exact flagsLe_refl _

/-! ### The layout loop -/

/-- allocated section -/
def Section.alloc (s : Section) : Bool := hasFlag s.sh.sh_flags SHF_ALLOC

/-- segment permissions of section flags -/
def segPerm (flags : Nat) : Nat :=
  PF_R ||| (if hasFlag flags SHF_WRITE then PF_W else 0) ||| (if hasFlag flags SHF_EXECINSTR then PF_X else 0)

/-- the extra header of `.interp` or `.dynamic` -/
def specialOf (isInterp : SectionHeader → Bool) (old : Nat) (s : Section) : List ProgramHeader :=
  match pType (isInterp s.sh) s.sh with
  | none => []
  | some ty =>
    [{ p_type := ty, p_flags := PF_R ||| (if hasFlag s.sh.sh_flags SHF_WRITE then PF_W else 0),
       p_align := s.sh.sh_addralign, p_offset := s.sh.sh_offset, p_vaddr := old, p_paddr := old,
       p_filesz := s.sizeOnDisk, p_memsz := s.sh.sh_size }]

theorem layoutStep_eq (isInterp : SectionHeader → Bool) (st : LayoutState) (s : Section) :
    layoutStep isInterp st s =
      ({ (placeSection st s).1 with
          phs := specialOf isInterp st.pVaddr (placeSection st s).2 ++ (placeSection st s).1.phs },
        (placeSection st s).2) := by
  unfold layoutStep specialOf
  simp only
  split <;> simp [*]

theorem specialOf_not_load (isInterp : SectionHeader → Bool) (old : Nat) (s : Section) :
    ∀ ph ∈ specialOf isInterp old s, ph.p_type = PT_DYNAMIC ∨ ph.p_type = PT_INTERP := by
  intro ph h
  unfold specialOf pType at h
  split at h
  · cases h
  · next ty ht =>
    simp only [List.mem_singleton] at h
    subst h
    split at ht
    · cases ht; exact .inl rfl
    · split at ht
      · cases ht; exact .inr rfl
      · cases ht

/-- what placing a section keeps -/
def SameCore (s t : Section) : Prop :=
  t.ptr = s.ptr ∧ t.index = s.index ∧ t.link = s.link ∧ t.kind = s.kind ∧
  t.sh = { s.sh with sh_addr := t.sh.sh_addr, sh_offset := t.sh.sh_offset } ∧
  t.chunks.map (fun c => (c.data, c.symbols, c.relocations)) =
    s.chunks.map (fun c => (c.data, c.symbols, c.relocations))

theorem setChunkAddrs_core (base : Nat) (cs : List Chunk) :
    (Section.setChunkAddrs base cs).map (fun c => (c.data, c.symbols, c.relocations)) =
      cs.map (fun c => (c.data, c.symbols, c.relocations)) := by
  induction cs generalizing base with
  | nil => rfl
  | cons c cs ih => simp [Section.setChunkAddrs, ih]

theorem placeSection_core (st : LayoutState) (s : Section) : SameCore s (placeSection st s).2 := by
  unfold placeSection SameCore loadHeader placeInFile Section.setAddress
  simp only
  split
  · split <;> simp [setChunkAddrs_core]
  · split <;> simp [setChunkAddrs_core]

theorem SameCore.flags {s t : Section} (h : SameCore s t) : t.sh.sh_flags = s.sh.sh_flags := by
  rw [h.2.2.2.2.1]
theorem SameCore.size {s t : Section} (h : SameCore s t) : t.sh.sh_size = s.sh.sh_size := by
  rw [h.2.2.2.2.1]
theorem SameCore.type {s t : Section} (h : SameCore s t) : t.sh.sh_type = s.sh.sh_type := by
  rw [h.2.2.2.2.1]
theorem SameCore.align {s t : Section} (h : SameCore s t) : t.sh.sh_addralign = s.sh.sh_addralign := by
  rw [h.2.2.2.2.1]
theorem SameCore.name {s t : Section} (h : SameCore s t) : t.sh.sh_name = s.sh.sh_name := by
  rw [h.2.2.2.2.1]
theorem SameCore.disk {s t : Section} (h : SameCore s t) : t.sizeOnDisk = s.sizeOnDisk := by
  unfold Section.sizeOnDisk; rw [h.type, h.size]
theorem SameCore.alloc {s t : Section} (h : SameCore s t) : t.alloc = s.alloc := by
  unfold Section.alloc; rw [h.flags]

/-- placing at a change of flags, allocated -/
theorem placeSection_new {st : LayoutState} {s : Section} (hx : st.extra = none ∨ st.fileOffset = 0)
    (hf : s.sh.sh_flags ≠ st.flags) (ha : s.alloc = true) :
    (placeSection st s).1 =
      { fileOffset := roundTo st.fileOffset PAGE_ALIGNMENT + (s.sizeOnDisk + st.extra.getD 0)
        pVaddr := roundTo st.pVaddr PAGE_ALIGNMENT + (s.sh.sh_size + st.extra.getD 0)
        extra := none
        flags := s.sh.sh_flags
        cur := some { p_type := PT_LOAD, p_flags := segPerm s.sh.sh_flags, p_align := PAGE_ALIGNMENT,
                      p_offset := roundTo st.fileOffset PAGE_ALIGNMENT,
                      p_vaddr := roundTo st.pVaddr PAGE_ALIGNMENT,
                      p_paddr := roundTo st.pVaddr PAGE_ALIGNMENT,
                      p_filesz := s.sizeOnDisk + st.extra.getD 0,
                      p_memsz := s.sh.sh_size + st.extra.getD 0 }
        phs := st.phs ++ st.cur.toList } ∧
    (placeSection st s).2.sh.sh_addr = roundTo st.pVaddr PAGE_ALIGNMENT + st.extra.getD 0 ∧
    (placeSection st s).2.sh.sh_offset = roundTo st.fileOffset PAGE_ALIGNMENT + st.extra.getD 0 := by
  unfold Section.alloc at ha
  unfold placeSection loadHeader
  simp only [hf, ne_eq, not_false_eq_true, if_true, ha, Section.setAddress]
  rcases hx with hx | hx
  · simp [hx, segPerm, Section.sizeOnDisk]
  · have : roundTo 0 PAGE_ALIGNMENT = 0 := by decide
    rw [hx, this]
    cases st.extra <;> simp [segPerm, Section.sizeOnDisk]

/-- placing at a change of flags, not allocated -/
theorem placeSection_plain {st : LayoutState} {s : Section} (hf : s.sh.sh_flags ≠ st.flags)
    (ha : s.alloc = false) :
    (placeSection st s).1 =
      { st with fileOffset := st.fileOffset + s.sizeOnDisk, flags := s.sh.sh_flags, cur := none
                phs := st.phs ++ st.cur.toList } ∧
    (placeSection st s).2.sh.sh_offset = st.fileOffset := by
  unfold Section.alloc at ha
  unfold placeSection placeInFile
  simp [hf, ha]

/-- placing a further section of the same flags outside a segment -/
theorem placeSection_same_none {st : LayoutState} {s : Section} (hf : s.sh.sh_flags = st.flags)
    (hc : st.cur = none) :
    (placeSection st s).1 = { st with fileOffset := st.fileOffset + s.sizeOnDisk } ∧
    (placeSection st s).2.sh.sh_offset = st.fileOffset := by
  unfold placeSection placeInFile
  simp [hf, hc]

/-- placing a further section of the same flags in a segment -/
theorem placeSection_same {st : LayoutState} {s : Section} {ph : ProgramHeader}
    (hf : s.sh.sh_flags = st.flags) (hc : st.cur = some ph) :
    (placeSection st s).1 =
      { st with fileOffset := st.fileOffset + s.sizeOnDisk, pVaddr := st.pVaddr + s.sh.sh_size
                cur := some { ph with p_filesz := ph.p_filesz + s.sizeOnDisk,
                                      p_memsz := ph.p_memsz + s.sh.sh_size } } ∧
    (placeSection st s).2.sh.sh_offset = st.fileOffset ∧
    (placeSection st s).2.sh.sh_addr = st.pVaddr := by
  unfold placeSection placeInFile
  simp [hf, hc, Section.setAddress, Section.sizeOnDisk]

/-- a program header of a segment loaded into memory -/
def isLoad (ph : ProgramHeader) : Bool := ph.p_type == PT_LOAD

/-- the segments so far -/
def LayoutState.loads (st : LayoutState) : List ProgramHeader := st.phs.filter isLoad ++ st.cur.toList

/-- zero-fill bytes of a section -/
def Section.bss (s : Section) : Nat := if s.sh.sh_type = SHT_NOBITS then s.sh.sh_size else 0

theorem Section.size_split (s : Section) : s.sh.sh_size = s.sizeOnDisk + s.bss := by
  unfold Section.sizeOnDisk Section.bss; split <;> simp_all

/-- zero-fill bytes of the sections with flags `f` -/
def bssOf (f : Nat) (l : List Section) : Nat :=
  ((l.filter fun s => s.sh.sh_flags == f).map Section.bss).sum

/-- a section inside a segment: memory, file and permissions -/
structure InSeg (ph : ProgramHeader) (s : Section) : Prop where
  memLo : ph.p_vaddr ≤ s.sh.sh_addr
  memHi : s.sh.sh_addr + s.sh.sh_size ≤ ph.p_vaddr + ph.p_memsz
  fileLo : ph.p_offset ≤ s.sh.sh_offset
  fileHi : s.sh.sh_offset + s.sizeOnDisk ≤ ph.p_offset + ph.p_filesz
  perm : ph.p_flags = segPerm s.sh.sh_flags

theorem snoc_split {α : Type} {l a b : List α} {x t : α} (h : l ++ [x] = a ++ t :: b) :
    (a = l ∧ t = x ∧ b = []) ∨ ∃ b', b = b' ++ [x] ∧ l = a ++ t :: b' := by
  rcases List.eq_nil_or_concat b with hb | ⟨b', y, hb⟩
  · subst hb
    have := List.append_inj' h rfl
    exact .inl ⟨this.1.symm, by simpa using this.2.symm, rfl⟩
  · subst hb
    right
    have h' : l ++ [x] = (a ++ t :: b') ++ [y] := by simpa using h
    have := List.append_inj' h' rfl
    exact ⟨b', by simpa using (by simpa using this.2 : x = y).symm, this.1⟩

/-- the invariant of the layout loop: `pl` are the sections placed so far -/
structure LInv (v0 hdr : Nat) (st : LayoutState) (pl : List Section) : Prop where
  start : pl = [] → st = { fileOffset := 0, pVaddr := v0, extra := some hdr, flags := 0, cur := none, phs := [] }
  going : pl ≠ [] → st.extra = none ∧ hdr ≤ st.fileOffset ∧ v0 + hdr ≤ st.pVaddr
  flags : ∀ s ∈ pl.getLast?, st.flags = s.sh.sh_flags
  cur : st.cur.isSome = hasFlag st.flags SHF_ALLOC
  curEnd : ∀ ph, st.cur = some ph → ph.p_vaddr + ph.p_memsz = st.pVaddr ∧
    ph.p_offset + ph.p_filesz = st.fileOffset ∧ ph.p_flags = segPerm st.flags ∧
    st.pVaddr + ph.p_offset = ph.p_vaddr + st.fileOffset + bssOf st.flags pl
  loadsOk : ∀ ph ∈ st.loads, ph.p_type = PT_LOAD ∧ ph.p_vaddr % PAGE_ALIGNMENT = 0 ∧
    ph.p_offset % PAGE_ALIGNMENT = 0 ∧ ph.p_align = PAGE_ALIGNMENT ∧ ph.p_paddr = ph.p_vaddr ∧
    v0 ≤ ph.p_vaddr ∧ ph.p_vaddr + ph.p_memsz ≤ st.pVaddr ∧ ph.p_offset + ph.p_filesz ≤ st.fileOffset ∧
    ph.p_filesz ≤ ph.p_memsz
  loadsAsc : st.loads.Pairwise fun a b =>
    a.p_vaddr + a.p_memsz ≤ b.p_vaddr ∧ a.p_offset + a.p_filesz ≤ b.p_offset
  first : pl ≠ [] → ∃ ph, st.loads.head? = some ph ∧ ph.p_offset = 0 ∧
    ph.p_vaddr = roundTo v0 PAGE_ALIGNMENT ∧ hdr ≤ ph.p_filesz
  secs : ∀ s ∈ pl, hdr ≤ s.sh.sh_offset ∧ s.sh.sh_offset + s.sizeOnDisk ≤ st.fileOffset ∧
    (s.alloc = true → v0 + hdr ≤ s.sh.sh_addr ∧ s.sh.sh_addr + s.sh.sh_size ≤ st.pVaddr)
  secsAsc : pl.Pairwise fun a b => a.sh.sh_offset + a.sizeOnDisk ≤ b.sh.sh_offset ∧
    (a.alloc = true → b.alloc = true → a.sh.sh_addr + a.sh.sh_size ≤ b.sh.sh_addr)
  cover : ∀ a s b, pl = a ++ s :: b → s.alloc = true → ∃ ph ∈ st.loads, InSeg ph s ∧
    s.sh.sh_addr + ph.p_offset = ph.p_vaddr + s.sh.sh_offset + bssOf s.sh.sh_flags a ∧
    (s.sh.sh_flags = st.flags → st.cur = some ph) ∧ (s.sh.sh_flags ≠ st.flags → ph ∈ st.phs) ∧
    ((∀ u ∈ b, u.sh.sh_flags = s.sh.sh_flags → u.sizeOnDisk = 0) → ph.p_offset + ph.p_filesz = s.sh.sh_offset + s.sizeOnDisk)
  shape : ∃ sp ld, st.phs = sp ++ ld ∧ (∀ ph ∈ sp, isLoad ph = false) ∧ (∀ ph ∈ ld, isLoad ph = true)

theorem bssOf_append (f : Nat) (a b : List Section) : bssOf f (a ++ b) = bssOf f a + bssOf f b := by
  simp [bssOf]

theorem bssOf_singleton (f : Nat) (s : Section) :
    bssOf f [s] = if s.sh.sh_flags = f then s.bss else 0 := by
  unfold bssOf
  by_cases h : s.sh.sh_flags = f
  · simp [h]
  · have : (s.sh.sh_flags == f) = false := by simpa using h
    simp [this, h]

theorem bssOf_eq_zero {f : Nat} {l : List Section} (h : ∀ t ∈ l, t.sh.sh_flags ≠ f) : bssOf f l = 0 := by
  unfold bssOf
  have : l.filter (fun s => s.sh.sh_flags == f) = [] := by
    rw [List.filter_eq_nil_iff]; intro t ht; simpa using h t ht
  rw [this]; rfl

theorem SameCore.bss {s t : Section} (h : SameCore s t) : t.bss = s.bss := by
  unfold Section.bss; rw [h.type, h.size]

/-- growing the current segment -/
def growSeg (ph : ProgramHeader) (s : Section) : ProgramHeader :=
  { ph with p_filesz := ph.p_filesz + s.sizeOnDisk, p_memsz := ph.p_memsz + s.sh.sh_size }

/-- the state after growing the current segment -/
def growState (st : LayoutState) (ph : ProgramHeader) (s : Section) : LayoutState :=
  { st with
    fileOffset := st.fileOffset + s.sizeOnDisk
    pVaddr := st.pVaddr + s.sh.sh_size
    cur := some (growSeg ph s) }

/-- the state after closing the current segment -/
def closeState (st : LayoutState) (s : Section) : LayoutState :=
  { st with
    fileOffset := st.fileOffset + s.sizeOnDisk
    flags := s.sh.sh_flags
    cur := none
    phs := st.phs ++ st.cur.toList }

theorem loads_of_cur {st : LayoutState} {ph : ProgramHeader} (h : st.cur = some ph) :
    st.loads = st.phs.filter isLoad ++ [ph] := by simp [LayoutState.loads, h]

theorem filter_load_append {l : List ProgramHeader} {st : LayoutState} {pl : List Section} {v0 hdr : Nat}
    (hI : LInv v0 hdr st pl) (hl : l = st.phs ++ st.cur.toList) : l.filter isLoad = st.loads := by
  subst hl
  rw [List.filter_append]
  unfold LayoutState.loads
  congr 1
  rw [List.filter_eq_self]
  intro ph hph
  have := (hI.loadsOk ph (by unfold LayoutState.loads; simp [hph])).1
  simp [isLoad, this]

theorem LInv.place {v0 hdr : Nat} {st : LayoutState} {pl : List Section} {s : Section}
    (hI : LInv v0 hdr st pl) (hfirst : pl = [] → s.alloc = true)
    (hgrp : s.sh.sh_flags ≠ st.flags → ∀ t ∈ pl, t.sh.sh_flags ≠ s.sh.sh_flags) :
    LInv v0 hdr (placeSection st s).1 (pl ++ [(placeSection st s).2]) := by
  have hcore := placeSection_core st s
  have hne : pl ++ [(placeSection st s).2] ≠ [] := by simp
  -- facts about the state before the step
  have hx : st.extra = none ∨ st.fileOffset = 0 := by
    by_cases hp : pl = []
    · right; rw [hI.start hp]
    · exact .inl (hI.going hp).1
  have hlow : pl ≠ [] → hdr ≤ st.fileOffset ∧ v0 + hdr ≤ st.pVaddr := fun h => (hI.going h).2
  by_cases hf : s.sh.sh_flags = st.flags
  · -- same flags
    have hpl : pl ≠ [] := by
      intro hp
      have h1 := hfirst hp
      rw [hI.start hp] at hf
      simp only at hf
      simp [Section.alloc, hf, hasFlag, SHF_ALLOC, u32] at h1
    obtain ⟨hex, hlo, hlv⟩ := hI.going hpl
    cases hc : st.cur with
    | none =>
      have hna : s.alloc = false := by
        have := hI.cur
        rw [hc] at this
        unfold Section.alloc; rw [hf, ← this]; rfl
      have hspec := placeSection_same_none hf hc
      generalize hst' : (placeSection st s).1 = st' at hspec ⊢
      generalize hs' : (placeSection st s).2 = s' at hspec hcore ⊢
      obtain ⟨rfl, hoff⟩ := hspec
      have hna' : s'.alloc = false := by rw [hcore.alloc]; exact hna
      refine ⟨by simp, fun _ => ⟨hex, by simp only; omega, hlv⟩, ?_, hI.cur, ?_, ?_, hI.loadsAsc,
        fun _ => hI.first hpl, ?_, ?_, ?_, hI.shape⟩
      · intro t ht; simp at ht; subst ht; rw [hcore.flags]; exact hf.symm
      · intro ph hph; simp only at hph; rw [hc] at hph; cases hph
      · intro ph hph
        have := hI.loadsOk ph hph
        simp only
        omega
      · intro t ht
        rcases List.mem_append.1 ht with ht | ht
        · have := hI.secs t ht
          refine ⟨this.1, ?_, this.2.2⟩
          simp only; omega
        · simp only [List.mem_singleton] at ht
          subst ht
          refine ⟨by omega, ?_, fun h => by rw [hna'] at h; cases h⟩
          simp only; rw [hoff, hcore.disk]; omega
      · rw [List.pairwise_append]
        refine ⟨hI.secsAsc, by simp, ?_⟩
        intro a ha b hb
        simp only [List.mem_singleton] at hb
        subst hb
        have := hI.secs a ha
        exact ⟨by omega, fun _ h => by rw [hna'] at h; cases h⟩
      · intro a t b heq hal
        rcases snoc_split heq with ⟨_, rfl, _⟩ | ⟨b', rfl, h⟩
        · rw [hna'] at hal; cases hal
        · obtain ⟨q, hq, hin, hg, hcq, hpq, hd⟩ := hI.cover a t b' h hal
          exact ⟨q, hq, hin, hg, hcq, hpq, fun hu => hd fun u hu' => hu u (by simp [hu'])⟩
    | some ph =>
      have hspec := placeSection_same hf hc
      obtain ⟨c1, c2, c3, c4⟩ := hI.curEnd ph hc
      have hsplit := Section.size_split s
      generalize hst' : (placeSection st s).1 = st' at hspec ⊢
      generalize hs' : (placeSection st s).2 = s' at hspec hcore ⊢
      obtain ⟨rfl, hoff, haddr⟩ := hspec
      have hloads : st.loads = st.phs.filter isLoad ++ [ph] := loads_of_cur hc
      have hloads' : LayoutState.loads (growState st ph s) =
          st.phs.filter isLoad ++ [growSeg ph s] := loads_of_cur rfl
      refine ⟨by simp, fun _ => ⟨hex, by simp only; omega, by simp only; omega⟩, ?_, ?_, ?_, ?_, ?_, ?_,
        ?_, ?_, ?_, hI.shape⟩
      · intro t ht; simp at ht; subst ht; rw [hcore.flags]; exact hf.symm
      · have := hI.cur; rw [hc] at this; exact this
      · intro q hq
        simp only [Option.some.injEq] at hq
        subst hq
        simp only
        rw [bssOf_append, bssOf_singleton, hcore.flags, if_pos hf, hcore.bss]
        refine ⟨by omega, by omega, c3, by omega⟩
      · change ∀ q ∈ LayoutState.loads (growState st ph s), _
        rw [hloads']
        intro q hq
        rcases List.mem_append.1 hq with hq | hq
        · have := hI.loadsOk q (by rw [hloads]; exact List.mem_append_left _ hq)
          simp only; omega
        · simp only [List.mem_singleton] at hq
          subst hq
          have := hI.loadsOk ph (by rw [hloads]; simp)
          simp only [growSeg]; omega
      · change (LayoutState.loads (growState st ph s)).Pairwise _
        have := hI.loadsAsc
        rw [hloads, List.pairwise_append] at this
        rw [hloads', List.pairwise_append]
        refine ⟨this.1, by simp, ?_⟩
        intro a ha b hb
        simp only [List.mem_singleton] at hb
        subst hb
        exact this.2.2 a ha ph (by simp)
      · intro _
        change ∃ q, (LayoutState.loads (growState st ph s)).head? = some q ∧ _
        rw [hloads']
        obtain ⟨q, h1, h2⟩ := hI.first hpl
        rw [hloads] at h1
        cases hl : st.phs.filter isLoad with
        | nil =>
          rw [hl] at h1
          simp at h1; subst h1
          exact ⟨_, rfl, by simp only [growSeg]; omega⟩
        | cons y ys =>
          rw [hl] at h1
          simp at h1; subst h1
          exact ⟨_, rfl, h2⟩
      · intro t ht
        rcases List.mem_append.1 ht with ht | ht
        · have := hI.secs t ht
          refine ⟨this.1, ?_, fun h => ⟨(this.2.2 h).1, ?_⟩⟩
          · simp only; omega
          · have := (this.2.2 h).2; simp only; omega
        · simp only [List.mem_singleton] at ht
          subst ht
          refine ⟨by omega, ?_, fun h => ?_⟩
          · simp only; rw [hoff, hcore.disk]; omega
          · simp only; rw [haddr, hcore.size]; omega
      · rw [List.pairwise_append]
        refine ⟨hI.secsAsc, by simp, ?_⟩
        intro a ha b hb
        simp only [List.mem_singleton] at hb
        subst hb
        have := hI.secs a ha
        exact ⟨by omega, fun h _ => by have := (this.2.2 h).2; omega⟩
      · intro a t b heq hal
        change ∃ q ∈ LayoutState.loads (growState st ph s), _
        rw [hloads']
        rcases snoc_split heq with ⟨rfl, rfl, _⟩ | ⟨b', hb', h⟩
        · refine ⟨growSeg ph s, by simp, ⟨?_, ?_, ?_, ?_, ?_⟩, ?_⟩
          · simp only [growSeg]; omega
          · simp only [growSeg]; rw [haddr, hcore.size]; omega
          · simp only [growSeg]; omega
          · simp only [growSeg]; rw [hoff, hcore.disk]; omega
          · simp only [growSeg]; rw [c3, hcore.flags, hf]
          · refine ⟨?_, fun _ => rfl, fun e => absurd (hcore.flags.trans hf) e, fun _ => ?_⟩
            · simp only [growSeg]; rw [haddr, hoff, hcore.flags, hf]; omega
            · simp only [growSeg]; rw [hoff, hcore.disk]; omega
        · obtain ⟨q, hq, hin, hg, hcq, hpq, hd⟩ := hI.cover a t b' h hal
          rw [hc, Option.some.injEq] at hcq
          by_cases hft : t.sh.sh_flags = st.flags
          · have hqp := hcq hft
            subst hqp
            refine ⟨growSeg ph s, by simp, ⟨hin.memLo, ?_, hin.fileLo, ?_, hin.perm⟩, hg, fun _ => rfl, fun e => absurd hft e, fun hu => ?_⟩
            · have := hin.memHi; simp only [growSeg]; omega
            · have := hin.fileHi; simp only [growSeg]; omega
            · have h1 := hd fun u hu' => hu u (by simp [hb', hu'])
              have h2 := hu s' (by simp [hb'])
              rw [hcore.disk, hcore.flags] at h2
              have h3 := h2 (hf.trans hft.symm)
              simp only [growSeg]; omega
          · have hm := hpq hft
            have hL := (hI.loadsOk q hq).1
            refine ⟨q, List.mem_append_left _ (List.mem_filter.2 ⟨hm, by simp [isLoad, hL]⟩), hin, hg, fun e => absurd e hft, fun _ => hm,
              fun hu => hd fun u hu' => hu u (by simp [hb', hu'])⟩
  · -- flags change
    have hshape : ∃ sp ld, st.phs ++ st.cur.toList = sp ++ ld ∧ (∀ ph ∈ sp, isLoad ph = false) ∧
        (∀ ph ∈ ld, isLoad ph = true) := by
      obtain ⟨sp, ld, h1, h2, h3⟩ := hI.shape
      refine ⟨sp, ld ++ st.cur.toList, by rw [h1, List.append_assoc], h2, ?_⟩
      intro q hq
      rcases List.mem_append.1 hq with hq | hq
      · exact h3 q hq
      · have := (hI.loadsOk q (by unfold LayoutState.loads; exact List.mem_append_right _ hq)).1
        simp [isLoad, this]
    have hfl := filter_load_append hI rfl
    cases hal : s.alloc with
    | false =>
      have hpl : pl ≠ [] := fun hp => by rw [hfirst hp] at hal; cases hal
      obtain ⟨hex, hlo, hlv⟩ := hI.going hpl
      have hspec := placeSection_plain hf hal
      generalize hst' : (placeSection st s).1 = st' at hspec ⊢
      generalize hs' : (placeSection st s).2 = s' at hspec hcore ⊢
      obtain ⟨rfl, hoff⟩ := hspec
      have hna' : s'.alloc = false := by rw [hcore.alloc]; exact hal
      have hloads' : LayoutState.loads (closeState st s) = st.loads := by
        unfold LayoutState.loads at hfl ⊢
        exact (List.append_nil _).trans hfl
      refine ⟨by simp, fun _ => ⟨hex, by simp only; omega, hlv⟩, ?_, ?_, ?_, ?_, ?_, ?_, ?_, ?_, ?_, hshape⟩
      · intro t ht; simp at ht; subst ht; rw [hcore.flags]
      · simp only; rw [show hasFlag s.sh.sh_flags SHF_ALLOC = s.alloc from rfl, hal]; rfl
      · intro ph hph; cases hph
      · change ∀ q ∈ LayoutState.loads (closeState st s), _
        rw [hloads']
        intro ph hph
        have := hI.loadsOk ph hph
        simp only
        omega
      · change (LayoutState.loads (closeState st s)).Pairwise _; rw [hloads']; exact hI.loadsAsc
      · change _ → ∃ q, (LayoutState.loads (closeState st s)).head? = some q ∧ _; rw [hloads']; exact fun _ => hI.first hpl
      · intro t ht
        rcases List.mem_append.1 ht with ht | ht
        · have := hI.secs t ht
          refine ⟨this.1, ?_, this.2.2⟩
          simp only; omega
        · simp only [List.mem_singleton] at ht
          subst ht
          refine ⟨by omega, ?_, fun h => by rw [hna'] at h; cases h⟩
          simp only; rw [hoff, hcore.disk]; omega
      · rw [List.pairwise_append]
        refine ⟨hI.secsAsc, by simp, ?_⟩
        intro a ha b hb
        simp only [List.mem_singleton] at hb
        subst hb
        have := hI.secs a ha
        exact ⟨by omega, fun _ h => by rw [hna'] at h; cases h⟩
      · change ∀ a t b, _ → _ → ∃ q ∈ LayoutState.loads (closeState st s), _
        rw [hloads']
        intro a t b heq hal
        rcases snoc_split heq with ⟨_, rfl, _⟩ | ⟨b', hb', h⟩
        · rw [hna'] at hal; cases hal
        · obtain ⟨q, hq, hin, hg, _, _, hd⟩ := hI.cover a t b' h hal
          refine ⟨q, hq, hin, hg, fun e => absurd e (hgrp hf t (by rw [h]; simp)), fun _ => ?_, fun hu => hd fun u hu' => hu u (by simp [hb', hu'])⟩
          rw [← hfl] at hq
          exact (List.mem_filter.1 hq).1
    | true =>
      have hspec := placeSection_new hx hf hal
      have hsplit := Section.size_split s
      have hV := le_roundTo st.pVaddr PAGE_ALIGNMENT
      have hF := le_roundTo st.fileOffset PAGE_ALIGNMENT
      have hVm := roundTo_page_mod st.pVaddr
      have hFm := roundTo_page_mod st.fileOffset
      have hstart : pl = [] → st.extra.getD 0 = hdr ∧ st.pVaddr = v0 ∧
          roundTo st.fileOffset PAGE_ALIGNMENT = 0 ∧ st.loads = [] ∧
          roundTo st.pVaddr PAGE_ALIGNMENT = roundTo v0 PAGE_ALIGNMENT := by
        intro hp; rw [hI.start hp]; exact ⟨rfl, rfl, (by decide : roundTo 0 PAGE_ALIGNMENT = 0), rfl, rfl⟩
      have hcont : pl ≠ [] → st.extra.getD 0 = 0 := by intro hp; rw [(hI.going hp).1]; rfl
      have hge : hdr ≤ roundTo st.fileOffset PAGE_ALIGNMENT + st.extra.getD 0 ∧
          v0 + hdr ≤ roundTo st.pVaddr PAGE_ALIGNMENT + st.extra.getD 0 := by
        by_cases hp : pl = []
        · have := hstart hp; omega
        · have := hlow hp; omega
      have hv0 : v0 ≤ roundTo st.pVaddr PAGE_ALIGNMENT := by
        by_cases hp : pl = []
        · have := hstart hp; omega
        · have := hlow hp; omega
      generalize hst' : (placeSection st s).1 = st' at hspec ⊢
      generalize hs' : (placeSection st s).2 = s' at hspec hcore ⊢
      generalize roundTo st.pVaddr PAGE_ALIGNMENT = V at *
      generalize roundTo st.fileOffset PAGE_ALIGNMENT = F at *
      generalize hxd : st.extra.getD 0 = x at *
      obtain ⟨rfl, haddr, hoff⟩ := hspec
      have hloads' : ∀ a b c d e, LayoutState.loads
          { fileOffset := a, pVaddr := b, extra := c, flags := d, cur := some e,
            phs := st.phs ++ st.cur.toList } = st.loads ++ [e] := by
        intro a b c d e
        rw [loads_of_cur rfl, hfl]
      refine ⟨by simp, fun _ => ⟨rfl, by simp only; omega, by simp only; omega⟩, ?_, ?_, ?_, ?_, ?_, ?_,
        ?_, ?_, ?_, hshape⟩
      · intro t ht; simp at ht; subst ht; rw [hcore.flags]
      · simp only; rw [show hasFlag s.sh.sh_flags SHF_ALLOC = s.alloc from rfl, hal]; rfl
      · intro ph hph
        simp only [Option.some.injEq] at hph
        subst hph
        simp only
        rw [bssOf_append, bssOf_eq_zero (hgrp hf), bssOf_singleton, hcore.flags, if_pos rfl, hcore.bss]
        refine ⟨trivial, trivial, trivial, ?_⟩
        omega
      · rw [hloads']
        intro ph hph
        rcases List.mem_append.1 hph with hph | hph
        · have := hI.loadsOk ph hph
          simp only; omega
        · simp only [List.mem_singleton] at hph
          subst hph
          simp only
          refine ⟨trivial, hVm, hFm, trivial, trivial, hv0, ?_⟩
          omega
      · rw [hloads', List.pairwise_append]
        refine ⟨hI.loadsAsc, by simp, ?_⟩
        intro a ha b hb
        simp only [List.mem_singleton] at hb
        subst hb
        have := hI.loadsOk a ha
        simp only; omega
      · intro _
        rw [hloads']
        by_cases hp : pl = []
        · obtain ⟨h1, h2, h3, h4, h5⟩ := hstart hp
          refine ⟨_, by rw [h4]; rfl, h3, h5, ?_⟩
          simp only; omega
        · obtain ⟨q, h1, h2⟩ := hI.first hp
          refine ⟨q, ?_, h2⟩
          cases hl : st.loads with
          | nil => rw [hl] at h1; cases h1
          | cons y ys => rw [hl] at h1; exact h1
      · intro t ht
        rcases List.mem_append.1 ht with ht | ht
        · have := hI.secs t ht
          refine ⟨this.1, ?_, fun h => ⟨(this.2.2 h).1, ?_⟩⟩
          · simp only; omega
          · have := (this.2.2 h).2; simp only; omega
        · simp only [List.mem_singleton] at ht
          subst ht
          refine ⟨by omega, ?_, fun h => ?_⟩
          · simp only; rw [hoff, hcore.disk]; omega
          · simp only; rw [haddr, hcore.size]; omega
      · rw [List.pairwise_append]
        refine ⟨hI.secsAsc, by simp, ?_⟩
        intro a ha b hb
        simp only [List.mem_singleton] at hb
        subst hb
        have := hI.secs a ha
        exact ⟨by omega, fun h _ => by have := (this.2.2 h).2; omega⟩
      · rw [hloads']
        intro a t b heq ht
        rcases snoc_split heq with ⟨rfl, rfl, _⟩ | ⟨b', hb', h⟩
        · refine ⟨_, List.mem_append_right _ (List.mem_singleton.2 rfl), ⟨?_, ?_, ?_, ?_, ?_⟩, ?_⟩
          · simp only; omega
          · simp only; rw [haddr, hcore.size]; omega
          · simp only; omega
          · simp only; rw [hoff, hcore.disk]; omega
          · simp only; rw [hcore.flags]
          · refine ⟨?_, fun _ => rfl, fun e => absurd hcore.flags e, fun _ => ?_⟩
            · simp only; rw [haddr, hoff, hcore.flags, bssOf_eq_zero (hgrp hf)]; omega
            · simp only; rw [hoff, hcore.disk]; omega
        · obtain ⟨q, hq, hin, hg, _, _, hd⟩ := hI.cover a t b' h ht
          have hq' := hq
          rw [← hfl] at hq'
          exact ⟨q, List.mem_append_left _ hq, hin, hg, fun e => absurd e (hgrp hf t (by rw [h]; simp)), fun _ => (List.mem_filter.1 hq').1,
            fun hu => hd fun u hu' => hu u (by simp [hb', hu'])⟩

theorem LInv.addSpecial {v0 hdr : Nat} {st : LayoutState} {pl : List Section}
    {sp : List ProgramHeader} (hI : LInv v0 hdr st pl) (hpl : pl ≠ [])
    (hsp : ∀ ph ∈ sp, isLoad ph = false) : LInv v0 hdr { st with phs := sp ++ st.phs } pl := by
  have hl : LayoutState.loads { st with phs := sp ++ st.phs } = st.loads := by
    unfold LayoutState.loads
    simp only
    rw [List.filter_append, List.filter_eq_nil_iff.2 (by intro a ha; simp [hsp a ha]), List.nil_append]
  refine ⟨fun h => absurd h hpl, hI.going, hI.flags, hI.cur, hI.curEnd, ?_, ?_, ?_, hI.secs, hI.secsAsc,
    ?_, ?_⟩
  · rw [hl]; exact hI.loadsOk
  · rw [hl]; exact hI.loadsAsc
  · rw [hl]; exact hI.first
  · rw [hl]
    intro a s b h1 h2
    obtain ⟨q, hq, hin, hg, hcq, hpq, hd⟩ := hI.cover a s b h1 h2
    exact ⟨q, hq, hin, hg, hcq, fun e => List.mem_append_right _ (hpq e), hd⟩
  · obtain ⟨a, b, h1, h2, h3⟩ := hI.shape
    refine ⟨sp ++ a, b, by simp only [h1, List.append_assoc], ?_, h3⟩
    intro ph hph
    rcases List.mem_append.1 hph with h | h
    · exact hsp ph h
    · exact h2 ph h

theorem LInv.step {v0 hdr : Nat} {st : LayoutState} {pl : List Section} {s : Section}
    (isInterp : SectionHeader → Bool)
    (hI : LInv v0 hdr st pl) (hfirst : pl = [] → s.alloc = true)
    (hgrp : s.sh.sh_flags ≠ st.flags → ∀ t ∈ pl, t.sh.sh_flags ≠ s.sh.sh_flags) :
    LInv v0 hdr (layoutStep isInterp st s).1 (pl ++ [(layoutStep isInterp st s).2]) := by
  rw [layoutStep_eq]
  refine (hI.place hfirst hgrp).addSpecial (by simp) ?_
  intro ph hph
  rcases specialOf_not_load _ _ _ ph hph with h | h <;> simp [isLoad, h] <;> decide

theorem layoutStep_core (isInterp : SectionHeader → Bool) (st : LayoutState) (s : Section) :
    SameCore s (layoutStep isInterp st s).2 := by
  rw [layoutStep_eq]; exact placeSection_core st s

theorem layoutLoop_append (isInterp : SectionHeader → Bool) (st : LayoutState) (a b : List Section) :
    layoutLoop isInterp st (a ++ b) =
      ((layoutLoop isInterp (layoutLoop isInterp st a).1 b).1,
       (layoutLoop isInterp st a).2 ++ (layoutLoop isInterp (layoutLoop isInterp st a).1 b).2) := by
  induction a generalizing st with
  | nil => rfl
  | cons s a ih => simp [layoutLoop, ih]

theorem layoutLoop_length (isInterp : SectionHeader → Bool) (st : LayoutState) (l : List Section) :
    (layoutLoop isInterp st l).2.length = l.length := by
  induction l generalizing st with
  | nil => rfl
  | cons s l ih => simp [layoutLoop, ih]

/-- the sections come out in order, changed only in address, offset and chunk addresses -/
theorem layoutLoop_core (isInterp : SectionHeader → Bool) (st : LayoutState) (l : List Section)
    (i : Nat) (s : Section) (h : l[i]? = some s) :
    ∃ t, (layoutLoop isInterp st l).2[i]? = some t ∧ SameCore s t := by
  induction l generalizing st i with
  | nil => simp at h
  | cons a l ih =>
    cases i with
    | zero =>
      simp only [List.getElem?_cons_zero, Option.some.injEq] at h
      subst h
      exact ⟨(layoutStep isInterp st a).2, rfl, layoutStep_core _ _ _⟩
    | succ i => simpa [layoutLoop] using ih (layoutStep isInterp st a).1 i (by simpa using h)

theorem layoutLoop_core' {isInterp : SectionHeader → Bool} {st : LayoutState} {l : List Section}
    {t : Section} (h : t ∈ (layoutLoop isInterp st l).2) : ∃ s ∈ l, SameCore s t := by
  induction l generalizing st with
  | nil => cases h
  | cons a l ih =>
    simp only [layoutLoop, List.mem_cons] at h
    rcases h with h | h
    · exact ⟨a, by simp, h ▸ layoutStep_core _ _ _⟩
    · obtain ⟨s, hs, hc⟩ := ih h; exact ⟨s, by simp [hs], hc⟩

theorem layoutLoop_flags (isInterp : SectionHeader → Bool) (st : LayoutState) (l : List Section) :
    (layoutLoop isInterp st l).2.map (·.sh.sh_flags) = l.map (·.sh.sh_flags) := by
  induction l generalizing st with
  | nil => rfl
  | cons s l ih => simp [layoutLoop, ih, (layoutStep_core isInterp st s).flags]

/-- the flags of the sections are sorted -/
def FlagsSorted (l : List Section) : Prop := l.Pairwise fun a b => flagsLe a.sh.sh_flags b.sh.sh_flags

/-- no section has an earlier place than its group -/
theorem FlagsSorted.group {pl l : List Section} {s : Section} {f : Nat}
    (h : ((pl ++ s :: l).map (·.sh.sh_flags)).Pairwise flagsLe)
    (hlast : ∀ t ∈ pl.getLast?, f = t.sh.sh_flags) (hne : s.sh.sh_flags ≠ f) :
    ∀ t ∈ pl, t.sh.sh_flags ≠ s.sh.sh_flags := by
  intro t ht heq
  rcases List.eq_nil_or_concat pl with hp | ⟨pl', u, hp⟩
  · subst hp; cases ht
  · subst hp
    have hu := hlast u (by simp)
    simp only [List.concat_eq_append, List.map_append, List.map_cons, List.append_assoc,
      List.pairwise_append, List.singleton_append] at h
    simp only [List.concat_eq_append, List.mem_append, List.mem_singleton] at ht
    rcases ht with ht | rfl
    · have h1 := h.2.2 t.sh.sh_flags (List.mem_map_of_mem ht) u.sh.sh_flags (by simp)
      have h2 := (List.pairwise_cons.1 h.2.1).1 s.sh.sh_flags (by simp)
      rw [heq] at h1
      exact hne (by rw [hu]; exact flagsLe_antisymm h1 h2)
    · exact hne (by rw [hu, heq])

theorem LInv.loop {v0 hdr : Nat} {isInterp : SectionHeader → Bool} {l : List Section} :
    ∀ {st : LayoutState} {pl : List Section}, LInv v0 hdr st pl →
    (pl = [] → ∀ s ∈ l.head?, s.alloc = true) →
    ((pl ++ l).map (·.sh.sh_flags)).Pairwise flagsLe →
    LInv v0 hdr (layoutLoop isInterp st l).1 (pl ++ (layoutLoop isInterp st l).2) := by
  induction l with
  | nil => intro st pl hI _ _; simpa [layoutLoop] using hI
  | cons s l ih =>
    intro st pl hI hfirst hs
    have h1 := hI.step isInterp (s := s) (fun hp => hfirst hp s (by simp))
      (fun hne => FlagsSorted.group hs hI.flags hne)
    have h2 := ih h1 (fun h => by simp at h) (by
      simpa [(layoutStep_core isInterp st s).flags] using hs)
    simpa [layoutLoop, List.append_assoc] using h2

theorem LInv.init (v0 hdr : Nat) :
    LInv v0 hdr { fileOffset := 0, pVaddr := v0, extra := some hdr, flags := 0, cur := none, phs := [] } [] := by
  refine ⟨fun _ => rfl, fun h => absurd rfl h, by simp, (by decide : false = hasFlag 0 SHF_ALLOC), by simp, by simp [LayoutState.loads],
    by simp [LayoutState.loads], fun h => absurd rfl h, by simp, by simp, by simp, ⟨[], [], by simp⟩⟩

/-! ### The number of segments -/

theorem placeSection_loads_length {v0 hdr : Nat} {st : LayoutState} {pl : List Section} {s : Section}
    (hI : LInv v0 hdr st pl) :
    (placeSection st s).1.loads.length = st.loads.length +
      (if s.sh.sh_flags ≠ st.flags then (if hasFlag s.sh.sh_flags SHF_ALLOC then 1 else 0) else 0) := by
  have hx : st.extra = none ∨ st.fileOffset = 0 := by
    by_cases hp : pl = []
    · right; rw [hI.start hp]
    · exact .inl (hI.going hp).1
  have hfl := filter_load_append hI rfl
  by_cases hf : s.sh.sh_flags = st.flags
  · rw [if_neg (by simpa using hf)]
    cases hc : st.cur with
    | none => rw [(placeSection_same_none hf hc).1]; rfl
    | some ph => rw [(placeSection_same hf hc).1]; simp [LayoutState.loads, hc]
  · rw [if_pos hf]
    cases ha : s.alloc with
    | false =>
      rw [(placeSection_plain hf ha).1]
      unfold Section.alloc at ha
      simp only [ha]
      rw [← hfl]; simp [LayoutState.loads]
    | true =>
      rw [(placeSection_new hx hf ha).1, loads_of_cur rfl, hfl]
      unfold Section.alloc at ha
      simp [ha]

theorem loads_addSpecial {st : LayoutState} {sp : List ProgramHeader}
    (hsp : ∀ ph ∈ sp, isLoad ph = false) :
    LayoutState.loads { st with phs := sp ++ st.phs } = st.loads := by
  unfold LayoutState.loads
  simp only
  rw [List.filter_append, List.filter_eq_nil_iff.2 (by intro a ha; simp [hsp a ha]), List.nil_append]

theorem specialOf_isLoad (isInterp : SectionHeader → Bool) (old : Nat) (s : Section) :
    ∀ ph ∈ specialOf isInterp old s, isLoad ph = false := by
  intro ph hph
  rcases specialOf_not_load _ _ _ ph hph with h | h <;> simp [isLoad, h] <;> decide

theorem placeSection_flags (st : LayoutState) (s : Section) :
    (placeSection st s).1.flags = s.sh.sh_flags := by
  unfold placeSection loadHeader placeInFile
  simp only
  split
  · split <;> simp [Section.setAddress]
  · split <;> simp_all

theorem layoutLoop_loads_length {v0 hdr : Nat} {isInterp : SectionHeader → Bool} {l : List Section} :
    ∀ {st : LayoutState} {pl : List Section}, LInv v0 hdr st pl →
    (pl = [] → ∀ s ∈ l.head?, s.alloc = true) →
    ((pl ++ l).map (·.sh.sh_flags)).Pairwise flagsLe →
    (layoutLoop isInterp st l).1.loads.length = st.loads.length + countLoads st.flags l := by
  induction l with
  | nil => intro st pl hI _ _; rfl
  | cons s l ih =>
    intro st pl hI hfirst hs
    have h1 := hI.step isInterp (s := s) (fun hp => hfirst hp s (by simp))
      (fun hne => FlagsSorted.group hs hI.flags hne)
    have h2 := ih h1 (fun h => by simp at h) (by
      simpa [(layoutStep_core isInterp st s).flags] using hs)
    simp only [layoutLoop]
    rw [h2, layoutStep_eq]
    simp only
    rw [loads_addSpecial (specialOf_isLoad _ _ _), placeSection_loads_length hI, placeSection_flags]
    simp only [countLoads]
    split <;> rename_i hf
    · omega
    · rw [show s.sh.sh_flags = st.flags from by simpa using hf]; omega

/-! ### The special headers -/

/-- where the headers other than `PT_LOAD` come from -/
structure SInv (isInterp : SectionHeader → Bool) (st : LayoutState) (pl : List Section) : Prop where
  src : ∀ ph ∈ st.phs, isLoad ph = false → ∃ a s b old, pl = a ++ s :: b ∧
    ph ∈ specialOf isInterp old s ∧
    (s.alloc = true → (∃ t ∈ a, t.sh.sh_flags = s.sh.sh_flags) → old = s.sh.sh_addr)
  cnt : ∀ ty, ty ≠ PT_LOAD → (st.phs.filter fun ph => ph.p_type == ty).length =
    (pl.filter fun s => pType (isInterp s.sh) s.sh == some ty).length

theorem specialOf_filter (isInterp : SectionHeader → Bool) (old : Nat) (s : Section) (ty : Nat) :
    ((specialOf isInterp old s).filter fun ph => ph.p_type == ty).length =
      ([s].filter fun s => pType (isInterp s.sh) s.sh == some ty).length := by
  unfold specialOf
  cases h : pType (isInterp s.sh) s.sh with
  | none => simp [h]
  | some t => by_cases ht : t = ty <;> simp [h, ht]

theorem SInv.step {v0 hdr : Nat} {isInterp : SectionHeader → Bool} {st : LayoutState}
    {pl : List Section} {s : Section} (hI : LInv v0 hdr st pl) (hS : SInv isInterp st pl)
    (hgrp : s.sh.sh_flags ≠ st.flags → ∀ t ∈ pl, t.sh.sh_flags ≠ s.sh.sh_flags) :
    SInv isInterp (layoutStep isInterp st s).1 (pl ++ [(layoutStep isInterp st s).2]) := by
  have hcur : ∀ ph ∈ st.cur.toList, ph.p_type = PT_LOAD := fun ph hph =>
    (hI.loadsOk ph (by unfold LayoutState.loads; exact List.mem_append_right _ hph)).1
  have hphs : (placeSection st s).1.phs = st.phs ∨ (placeSection st s).1.phs = st.phs ++ st.cur.toList := by
    unfold placeSection loadHeader placeInFile
    simp only
    split
    · split <;> simp
    · split <;> simp_all
  rw [layoutStep_eq]
  constructor
  · intro ph hph hnl
    simp only [List.mem_append] at hph
    rcases hph with hph | hph
    · refine ⟨pl, (placeSection st s).2, [], st.pVaddr, rfl, hph, ?_⟩
      intro hal ⟨t, ht, hfe⟩
      rw [(placeSection_core st s).flags] at hfe
      rw [(placeSection_core st s).alloc] at hal
      have hf : s.sh.sh_flags = st.flags := by
        apply Classical.byContradiction
        intro hne
        exact hgrp hne t ht hfe
      cases hc : st.cur with
      | none =>
        have := hI.cur
        rw [hc, ← hf] at this
        rw [Section.alloc, ← this] at hal; cases hal
      | some q => exact (placeSection_same hf hc).2.2.symm
    · have hmem : ph ∈ st.phs := by
        rcases hphs with h | h
        · rwa [h] at hph
        · rw [h] at hph
          rcases List.mem_append.1 hph with h' | h'
          · exact h'
          · have := hcur ph h'; simp [isLoad, this] at hnl
      obtain ⟨a, t, b, old, h1, h2, h3⟩ := hS.src ph hmem hnl
      exact ⟨a, t, b ++ [(placeSection st s).2], old, by rw [h1]; simp, h2, h3⟩
  · intro ty hty
    simp only [List.filter_append, List.length_append]
    have : ((placeSection st s).1.phs.filter fun ph => ph.p_type == ty).length =
        (st.phs.filter fun ph => ph.p_type == ty).length := by
      rcases hphs with h | h
      · rw [h]
      · have hnil : (st.cur.toList.filter fun ph => ph.p_type == ty) = [] := by
          rw [List.filter_eq_nil_iff]
          intro ph hph
          have := hcur ph hph
          simp only [this, beq_iff_eq]
          exact fun h => hty h.symm
        rw [h, List.filter_append, hnil, List.append_nil]
    rw [this, hS.cnt ty hty, specialOf_filter]
    omega

theorem SInv.loop {v0 hdr : Nat} {isInterp : SectionHeader → Bool} {l : List Section} :
    ∀ {st : LayoutState} {pl : List Section}, LInv v0 hdr st pl → SInv isInterp st pl →
    (pl = [] → ∀ s ∈ l.head?, s.alloc = true) →
    ((pl ++ l).map (·.sh.sh_flags)).Pairwise flagsLe →
    SInv isInterp (layoutLoop isInterp st l).1 (pl ++ (layoutLoop isInterp st l).2) := by
  induction l with
  | nil => intro st pl _ hS _ _; simpa [layoutLoop] using hS
  | cons s l ih =>
    intro st pl hI hS hfirst hs
    have hg := fun hne => FlagsSorted.group hs hI.flags hne
    have h1 := hI.step isInterp (s := s) (fun hp => hfirst hp s (by simp)) hg
    have h2 := ih h1 (hS.step hI hg) (fun h => by simp at h) (by
      simpa [(layoutStep_core isInterp st s).flags] using hs)
    simpa [layoutLoop, List.append_assoc] using h2

/-! ### The whole of `generate_program_headers` -/

/-- the sections as the layout expects them: the null section, then sorted flags, starting with an
allocated section and ending with one that is not -/
structure Ready (secs : List Section) : Prop where
  sorted : ((secs.drop 1).map (·.sh.sh_flags)).Pairwise flagsLe
  head : ∀ s ∈ (secs.drop 1).head?, s.alloc = true
  last : ∀ s ∈ (secs.drop 1).getLast?, s.alloc = false
  nonempty : secs.drop 1 ≠ []

/-- the final state of the layout loop -/
def finalState (isInterp : SectionHeader → Bool) (phentsize v0 : Nat) (secs : List Section) :
    LayoutState × List Section :=
  layoutLoop isInterp
    { fileOffset := 0, pVaddr := v0, extra := some (countProgramHeaders secs * phentsize + sizeofHeader),
      flags := 0, cur := none, phs := [] } (secs.drop 1)

theorem generateProgramHeaders_eq (isInterp : SectionHeader → Bool) (phentsize v0 : Nat)
    (secs : List Section) :
    generateProgramHeaders isInterp phentsize 0 v0 secs =
      (secs.take 1 ++ (finalState isInterp phentsize v0 secs).2,
        phdrPlaceholder :: (finalState isInterp phentsize v0 secs).1.phs,
        (finalState isInterp phentsize v0 secs).1.fileOffset,
        (finalState isInterp phentsize v0 secs).1.pVaddr) := rfl

theorem Ready.inv {isInterp : SectionHeader → Bool} {phentsize v0 : Nat} {secs : List Section}
    (h : Ready secs) :
    LInv v0 (countProgramHeaders secs * phentsize + sizeofHeader)
      (finalState isInterp phentsize v0 secs).1 (finalState isInterp phentsize v0 secs).2 := by
  have := (LInv.init v0 (countProgramHeaders secs * phentsize + sizeofHeader)).loop
    (isInterp := isInterp) (l := secs.drop 1) (fun _ => h.head) (by simpa using h.sorted)
  rw [List.nil_append] at this
  exact this

theorem Ready.sinv {isInterp : SectionHeader → Bool} {phentsize v0 : Nat} {secs : List Section}
    (h : Ready secs) :
    SInv isInterp (finalState isInterp phentsize v0 secs).1 (finalState isInterp phentsize v0 secs).2 := by
  have := SInv.loop (isInterp := isInterp)
    (LInv.init v0 (countProgramHeaders secs * phentsize + sizeofHeader)) ⟨by simp, by simp⟩
    (l := secs.drop 1) (fun _ => h.head) (by simpa using h.sorted)
  rw [List.nil_append] at this
  exact this

theorem Ready.cur_none {isInterp : SectionHeader → Bool} {phentsize v0 : Nat} {secs : List Section}
    (h : Ready secs) : (finalState isInterp phentsize v0 secs).1.cur = none := by
  have hI := h.inv (isInterp := isInterp) (phentsize := phentsize) (v0 := v0)
  obtain ⟨i, s, hs⟩ : ∃ i s, secs.drop 1 = i ++ [s] := by
    rcases List.eq_nil_or_concat (secs.drop 1) with h' | ⟨i, s, h'⟩
    · exact absurd h' h.nonempty
    · exact ⟨i, s, by simpa using h'⟩
  have hl := h.last s (by rw [hs]; simp)
  have hfin : (finalState isInterp phentsize v0 secs).2.getLast?.map (·.sh.sh_flags) = some s.sh.sh_flags := by
    rw [← List.getLast?_map]
    unfold finalState
    rw [layoutLoop_flags, hs]
    simp
  cases hg : (finalState isInterp phentsize v0 secs).2.getLast? with
  | none => rw [hg] at hfin; cases hfin
  | some t =>
    rw [hg] at hfin
    have h1 := hI.flags t hg
    have h2 := hI.cur
    simp only [Option.map_some, Option.some.injEq] at hfin
    rw [h1, hfin, show hasFlag s.sh.sh_flags SHF_ALLOC = s.alloc from rfl, hl] at h2
    simpa using h2

theorem Ready.loads {isInterp : SectionHeader → Bool} {phentsize v0 : Nat} {secs : List Section}
    (h : Ready secs) : (finalState isInterp phentsize v0 secs).1.loads =
      (finalState isInterp phentsize v0 secs).1.phs.filter isLoad := by
  simp [LayoutState.loads, h.cur_none]

theorem Ready.loads_length {isInterp : SectionHeader → Bool} {phentsize v0 : Nat} {secs : List Section}
    (h : Ready secs) : ((finalState isInterp phentsize v0 secs).1.phs.filter isLoad).length + 3 =
      countProgramHeaders secs := by
  rw [← h.loads]
  unfold finalState
  rw [layoutLoop_loads_length (LInv.init v0 (countProgramHeaders secs * phentsize + sizeofHeader))
    (fun _ => h.head) (by simpa using h.sorted)]
  simp [LayoutState.loads, countProgramHeaders]

theorem length_filter_split {α : Type} (p : α → Bool) (l : List α) :
    l.length = (l.filter p).length + (l.filter fun x => !p x).length := by
  induction l with
  | nil => rfl
  | cons a l ih => by_cases h : p a <;> simp [h] <;> omega

/-- the number of headers is the predicted number -/
theorem Ready.phs_length {isInterp : SectionHeader → Bool} {phentsize v0 : Nat} {secs : List Section}
    (h : Ready secs)
    (hsp : ((secs.drop 1).filter fun s => (pType (isInterp s.sh) s.sh).isSome).length = 2)
    (hname : ∀ sh a o, isInterp { sh with sh_addr := a, sh_offset := o } = isInterp sh) :
    (finalState isInterp phentsize v0 secs).1.phs.length + 1 = countProgramHeaders secs := by
  have h1 := h.loads_length (isInterp := isInterp) (phentsize := phentsize) (v0 := v0)
  rw [length_filter_split isLoad, ← h1]
  have hS := h.sinv (isInterp := isInterp) (phentsize := phentsize) (v0 := v0)
  have hd := hS.cnt PT_DYNAMIC (by decide)
  have hi := hS.cnt PT_INTERP (by decide)
  have hsrc : ∀ ph ∈ (finalState isInterp phentsize v0 secs).1.phs, isLoad ph = false →
      ph.p_type = PT_DYNAMIC ∨ ph.p_type = PT_INTERP := by
    intro ph hph hnl
    obtain ⟨a, s, b, old, _, h2, _⟩ := hS.src ph hph hnl
    exact specialOf_not_load _ _ _ ph h2
  generalize (finalState isInterp phentsize v0 secs).1.phs = phs at *
  have hsum : (phs.filter fun x => !isLoad x).length =
      (phs.filter fun ph => ph.p_type == PT_DYNAMIC).length +
      (phs.filter fun ph => ph.p_type == PT_INTERP).length := by
    clear hd hi h1
    induction phs with
    | nil => rfl
    | cons a l ih =>
      have ih := ih (fun ph hph => hsrc ph (by simp [hph]))
      by_cases ha : isLoad a = true
      · have hty : a.p_type = PT_LOAD := by simpa [isLoad] using ha
        simp only [List.filter_cons, ha, hty]
        simp only [PT_LOAD, PT_DYNAMIC, PT_INTERP] at ih ⊢
        simpa using ih
      · rcases hsrc a (by simp) (by simpa using ha) with h | h <;>
          simp [List.filter_cons, ha, h, ih] <;> simp [PT_DYNAMIC, PT_INTERP] <;> omega
  have hpl : ((finalState isInterp phentsize v0 secs).2.filter
      fun s => (pType (isInterp s.sh) s.sh).isSome).length =
      ((secs.drop 1).filter fun s => (pType (isInterp s.sh) s.sh).isSome).length := by
    unfold finalState
    generalize ({ fileOffset := 0, pVaddr := v0, extra := some (countProgramHeaders secs * phentsize + sizeofHeader), flags := 0, cur := none, phs := [] } : LayoutState) = st0
    clear hd hi h1 hsum hsrc hS
    generalize secs.drop 1 = l
    induction l generalizing st0 with
    | nil => rfl
    | cons s l ih =>
      have hc := layoutStep_core isInterp st0 s
      have : pType (isInterp (layoutStep isInterp st0 s).2.sh) (layoutStep isInterp st0 s).2.sh =
          pType (isInterp s.sh) s.sh := by
        rw [hc.2.2.2.2.1, hname]; rfl
      simp only [layoutLoop, List.filter_cons, this]
      split <;> simp [ih]
  have hsum2 : ∀ l : List Section, (l.filter fun s => (pType (isInterp s.sh) s.sh).isSome).length =
      (l.filter fun s => pType (isInterp s.sh) s.sh == some PT_DYNAMIC).length +
      (l.filter fun s => pType (isInterp s.sh) s.sh == some PT_INTERP).length := by
    intro l
    induction l with
    | nil => rfl
    | cons s l ih =>
      have : pType (isInterp s.sh) s.sh = some PT_DYNAMIC ∨ pType (isInterp s.sh) s.sh = some PT_INTERP ∨
          pType (isInterp s.sh) s.sh = none := by
        unfold pType; split
        · simp
        · split <;> simp
      rcases this with h | h | h <;> simp [List.filter_cons, h, ih] <;> simp [PT_DYNAMIC, PT_INTERP] <;> omega
  rw [hsum, hd, hi, ← hsum2, hpl, hsp]

end Dld
