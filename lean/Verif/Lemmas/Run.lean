import Verif.Lemmas.Pipeline
import Verif.Lemmas.Place
/-! # Facts about a complete link -/
namespace Dld
open Writer

/-! ### The layout invariants see sections only up to their chunks -/

theorem post_eq {s t : Section} (h : post s = post t) :
    s.ptr = t.ptr ∧ s.index = t.index ∧ s.link = t.link ∧ s.kind = t.kind ∧ s.sh = t.sh := by
  simpa [post] using h

theorem post_disk {s t : Section} (h : post s = post t) : s.sizeOnDisk = t.sizeOnDisk := by
  unfold Section.sizeOnDisk; rw [(post_eq h).2.2.2.2]

theorem post_alloc {s t : Section} (h : post s = post t) : s.alloc = t.alloc := by
  unfold Section.alloc; rw [(post_eq h).2.2.2.2]

theorem split_of_map {α β : Type} {F : α → β} {l l' a b : List α} {x : α} (h : l'.map F = l.map F) (hl : l' = a ++ x :: b) :
    ∃ a' x' b', l = a' ++ x' :: b' ∧ a'.map F = a.map F ∧ F x' = F x ∧ b'.map F = b.map F := by
  subst hl
  rw [List.map_append, List.map_cons] at h
  obtain ⟨a', r, h1, h2, h3⟩ := List.append_eq_map_iff.1 h
  obtain ⟨x', b', h4, h5, h6⟩ := List.map_eq_cons_iff.1 h3
  exact ⟨a', x', b', by rw [h1, h4], h2, h5, h6⟩

theorem bssOf_post {f : Nat} {a b : List Section} (h : a.map post = b.map post) : bssOf f a = bssOf f b := by
  induction a generalizing b with
  | nil => cases b with
    | nil => rfl
    | cons => cases h
  | cons s a ih => cases b with
    | nil => cases h
    | cons t b =>
      simp only [List.map_cons, List.cons.injEq] at h
      rw [← List.singleton_append, ← List.singleton_append (l := b), bssOf_append, bssOf_append, ih h.2,
        bssOf_singleton, bssOf_singleton]
      unfold Section.bss
      rw [(post_eq h.1).2.2.2.2]

theorem pairwise_post {R S : Section → Section → Prop} {l l' : List Section} (h : l'.map post = l.map post)
    (hR : ∀ a b a' b', post a' = post a → post b' = post b → R a b → S a' b') (hp : l.Pairwise R) : l'.Pairwise S := by
  rw [List.pairwise_iff_getElem] at hp ⊢
  intro i j hi hj hij
  have hlen : l'.length = l.length := by simpa using congrArg List.length h
  have e : ∀ k (hk : k < l'.length), post l'[k] = post (l[k]'(by omega)) := by
    intro k hk
    have := congrArg (·[k]?) h
    simp only [List.getElem?_map] at this
    rw [List.getElem?_eq_getElem hk, List.getElem?_eq_getElem (by omega)] at this
    simpa using this
  exact hR _ _ _ _ (e i hi) (e j hj) (hp i j (by omega) (by omega) hij)

theorem mem_post {l l' : List Section} (h : l'.map post = l.map post) {s : Section} (hs : s ∈ l') :
    ∃ t ∈ l, post s = post t := Writer.mem_of_map_eq h hs

theorem LInv.congr {v0 hdr : Nat} {st : LayoutState} {pl pl' : List Section} (h : pl'.map post = pl.map post)
    (hI : LInv v0 hdr st pl) : LInv v0 hdr st pl' := by
  have hnil : pl' = [] ↔ pl = [] := by
    have hlen : pl'.length = pl.length := by simpa using congrArg List.length h
    rw [← List.length_eq_zero_iff, ← List.length_eq_zero_iff, hlen]
  refine ⟨fun hp => hI.start (hnil.1 hp), fun hp => hI.going (fun h' => hp (hnil.2 h')), ?_, hI.cur, ?_, hI.loadsOk,
    hI.loadsAsc, fun hp => hI.first (fun h' => hp (hnil.2 h')), ?_, ?_, ?_, hI.shape⟩
  · intro s hs
    have hm : pl'.getLast?.map post = pl.getLast?.map post := by rw [← List.getLast?_map, ← List.getLast?_map, h]
    rw [Option.mem_def] at hs
    rw [hs] at hm
    cases hp : pl.getLast? with
    | none => rw [hp] at hm; cases hm
    | some t =>
      rw [hp] at hm
      rw [hI.flags t hp, (post_eq (by simpa using hm : post s = post t)).2.2.2.2]
  · intro ph hph
    rw [bssOf_post h]; exact hI.curEnd ph hph
  · intro s hs
    obtain ⟨t, ht, e⟩ := mem_post h hs
    rw [(post_eq e).2.2.2.2, post_disk e, post_alloc e]
    exact hI.secs t ht
  · refine pairwise_post h ?_ hI.secsAsc
    intro a b a' b' ea eb hab
    rw [(post_eq ea).2.2.2.2, (post_eq eb).2.2.2.2, post_disk ea, post_alloc ea, post_alloc eb]
    exact hab
  · intro a s b hl hal
    obtain ⟨a', s', b', h1, h2, h3, h4⟩ := split_of_map h hl
    obtain ⟨ph, hph, hin, he, hcq, hpq, hd⟩ := hI.cover a' s' b' h1 (by rw [post_alloc h3]; exact hal)
    have e := (post_eq h3).2.2.2.2
    refine ⟨ph, hph, ⟨?_, ?_, ?_, ?_, ?_⟩, ?_⟩
    · rw [← e]; exact hin.memLo
    · rw [← e]; exact hin.memHi
    · rw [← e]; exact hin.fileLo
    · rw [← e, ← post_disk h3]; exact hin.fileHi
    · rw [← e]; exact hin.perm
    · refine ⟨by rw [← e, ← bssOf_post h2]; exact he, by rw [← e]; exact hcq, by rw [← e]; exact hpq, fun hu => ?_⟩
      rw [← e, ← post_disk h3]
      refine hd fun u hu' hf => ?_
      obtain ⟨v, hv, ev⟩ := mem_post h4 hu'
      rw [post_disk ev]
      exact hu v hv (by rw [← (post_eq ev).2.2.2.2, ← e]; exact hf)

theorem memOf_post {f : Nat} {a b : List Section} (h : a.map post = b.map post) : memOf f a = memOf f b := by
  induction a generalizing b with
  | nil => cases b with
    | nil => rfl
    | cons => cases h
  | cons s a ih => cases b with
    | nil => cases h
    | cons t b =>
      simp only [List.map_cons, List.cons.injEq] at h
      rw [← List.singleton_append, ← List.singleton_append (l := b), memOf_append, memOf_append, ih h.2,
        memOf_singleton, memOf_singleton]
      rw [(post_eq h.1).2.2.2.2]

theorem headRoom_post {hdr f : Nat} {a b : List Section} (h : a.map post = b.map post) : headRoom hdr f a = headRoom hdr f b := by
  have h1 : a.map (·.sh.sh_flags) = b.map (·.sh.sh_flags) :=
    map_of_map h (fun p => p.2.2.2.2.sh_flags) (fun _ => rfl)
  unfold headRoom
  rw [← List.head?_map, ← List.head?_map, h1]

/-- the memory part of the layout invariant, for sections known up to their chunks -/
structure Placed (v0 hdr : Nat) (pl : List Section) : Prop where
  secs : ∀ a s b, pl = a ++ s :: b → s.alloc = true → ∃ v, v % PAGE_ALIGNMENT = 0 ∧
    s.sh.sh_addr = v + headRoom hdr s.sh.sh_flags pl + memOf s.sh.sh_flags a
  head : ∀ s ∈ pl.head?, s.sh.sh_offset = hdr ∧ s.alloc = true ∧ s.sh.sh_addr = roundTo v0 PAGE_ALIGNMENT + hdr

theorem MInv.placed {v0 hdr : Nat} {st : LayoutState} {pl pl' : List Section} (h : pl'.map post = pl.map post)
    (hM : MInv v0 hdr st pl) : Placed v0 hdr pl' := by
  constructor
  · intro a s b hl hal
    obtain ⟨a', s', b', h1, h2, h3, _⟩ := split_of_map h hl
    obtain ⟨v, hv, he⟩ := hM.secs a' s' b' h1 (by rw [post_alloc h3]; exact hal)
    refine ⟨v, hv, ?_⟩
    rw [headRoom_post h, ← (post_eq h3).2.2.2.2, ← memOf_post h2]; exact he
  · intro s hs
    have h1 : pl'.head?.map post = pl.head?.map post := by rw [← List.head?_map, ← List.head?_map, h]
    rw [Option.mem_def] at hs
    rw [hs] at h1
    cases hp : pl.head? with
    | none => rw [hp] at h1; cases h1
    | some t =>
      rw [hp] at h1
      have e : post s = post t := by simpa using h1
      rw [(post_eq e).2.2.2.2, post_alloc e]
      exact hM.head t hp

theorem SInv.congr {isInterp : SectionHeader → Bool} {st : LayoutState} {pl pl' : List Section} (h : pl'.map post = pl.map post)
    (hS : SInv isInterp st pl) : SInv isInterp st pl' := by
  constructor
  · intro ph hph hl
    obtain ⟨a, s, b, old, h1, h2, h3⟩ := hS.src ph hph hl
    obtain ⟨a', s', b', h4, h5, h6, _⟩ := split_of_map h.symm h1
    have e := (post_eq h6).2.2.2.2
    refine ⟨a', s', b', old, h4, ?_, ?_⟩
    · unfold specialOf at h2 ⊢
      rw [e, post_disk h6]; exact h2
    · intro hal ⟨t, ht, hf⟩
      obtain ⟨t', ht', e'⟩ := mem_post h5 ht
      rw [e]
      refine h3 (by rw [← post_alloc h6]; exact hal) ⟨t', ht', ?_⟩
      rw [← (post_eq e').2.2.2.2, hf, e]
  · intro ty hty
    rw [hS.cnt ty hty]
    have key : ∀ l : List Section, (l.filter fun s => pType (isInterp s.sh) s.sh == some ty).length =
        ((l.map post).filter fun p => pType (isInterp p.2.2.2.2) p.2.2.2.2 == some ty).length := by
      intro l
      rw [List.filter_map, List.length_map]; rfl
    rw [key, key, h]

/-! ### Names -/

theorem Holds_name {t : StringTable} {ns : List Name} (h : StringTable.Holds t ns) {n : Name} (hn : n ∈ ns) :
    t.name (nameOff ns n) = some n := by
  unfold StringTable.name StringTable.nameIn
  rw [h.names]
  cases hf : (StringTable.lay 0 0 ns).find? fun e => e.2.2 == nameOff ns n with
  | none =>
    have := List.find?_eq_none.1 hf _ (StringTable.mem_lay_of_mem (i := 0) (o := 0) hn)
    simp [nameOff] at this
  | some e =>
    have hm := List.mem_of_find?_eq_some hf
    have he : e.2.2 = nameOff ns n := by simpa using List.find?_some hf
    obtain ⟨h1, h2⟩ := StringTable.mem_lay h.nodup hm
    rw [h2] at he
    simp only [Nat.zero_add, nameOff] at he
    simp [StringTable.offset_inj h1 hn he]

theorem nameOff_lt {ns : List Name} {n : Name} (hn : n ∈ ns) : nameOff ns n < StringTable.total ns := by
  have hi := List.idxOf_lt_length_iff.2 hn
  have := StringTable.total_take_lt (ns := ns) hi hi
  rwa [List.take_length] at this

theorem u32_of_lt {n : Nat} (h : n < 2 ^ 32) : u32 n = n := Nat.mod_eq_of_lt h

/-- the name of each section of the writer -/
theorem WInv.sec_names {opts : Options} {w0 w : Writer} {ops : List Op} {pn : List Name}
    (hI : WInv opts w0 ops w pn) (h0 : Writer.new opts = .ok w0) (hlt : w.shstr.totalLen < 2 ^ 32) :
    (w.sections.map fun s => w.shstr.name s.sh.sh_name) = (baseNames opts.hashStyle ++ pn).map some := by
  have h1 := hI.sh_names h0
  have : (w.sections.map fun s => w.shstr.name s.sh.sh_name) = (w.sections.map (·.sh.sh_name)).map w.shstr.name := by
    rw [List.map_map]; rfl
  rw [this, h1, List.map_map]
  apply List.map_congr_left
  intro n hn
  have hm : n ∈ tabNames opts.hashStyle ++ pn := by
    rcases List.mem_append.1 hn with h | h
    · exact List.mem_append_left _ ((tabNames_perm _).mem_iff.1 h)
    · exact List.mem_append_right _ h
  have hl := nameOff_lt hm
  have ht := hI.names.total
  simp only [Function.comp]
  rw [u32_of_lt (by omega), Holds_name hI.names hm]

theorem WInv.names_nodup {opts : Options} {w0 w : Writer} {ops : List Op} {pn : List Name}
    (hI : WInv opts w0 ops w pn) : (baseNames opts.hashStyle ++ pn).Nodup :=
  (((tabNames_perm opts.hashStyle).append_right pn).nodup_iff).2 hI.names.nodup

/-! ### The stages together -/

namespace Writer

variable {sched : Sched} {w : Writer}

/-- the writer when the sections get their addresses -/
def Early.placed (st : Early sched w) : Writer := st.sorted.genProgramHeaders

theorem Early.sorted_rest (st : Early sched w) :
    st.sorted.shstr = w.shstr ∧ st.sorted.symstr = w.symstr ∧ st.sorted.dynstr = w.dynstr ∧ st.sorted.eh = w.eh ∧
    st.sorted.programHeaders = w.programHeaders ∧ st.sorted.pVaddr = w.pVaddr ∧
    st.sorted.startPVaddr = w.startPVaddr ∧ st.sorted.fileOffset = w.fileOffset ∧ st.sorted.dynEntries = w.dynEntries := by
  have h1 := (scan_sections st.hscan).2
  have h2 := fillHashes_rest st.hfill
  have h3 := genDynRels_rest st.hdynrel
  have h4 := (sizeDynamic_sections st.hdynamic).2
  obtain ⟨_, _, _, h5, _⟩ := sortSecs_ok st.hsort
  rw [h5, h4, h3]
  simp only [expandRest]
  rw [h2]
  simp only [expandDynsym, resizeGotPlt, resizeGot, modSec]
  rw [h1]
  exact ⟨rfl, rfl, rfl, rfl, rfl, rfl, rfl, rfl, rfl⟩

theorem finishHeader_ok {w w' : Writer} (h : w.finishHeader = .ok w') :
    ∃ entry s ph phs, w.sec P.shstr = .ok s ∧ w.programHeaders = ph :: phs ∧
      (∀ e, w.symstr.get b!"_start" = some e → ∃ y, w.symtab.get (.named (u32 e.offset)) = some y ∧ entry = y.sym.st_value) ∧
      (w.symstr.get b!"_start" = none → entry = w.eh.e_entry) ∧
      u16 w.programHeaders.length * w.eh.e_phentsize < 65536 ∧
      w' = { w with
        eh := { w.eh with e_entry := entry, e_shnum := u16 w.sections.length, e_phnum := u16 w.programHeaders.length, e_shstrndx := u16 s.index, e_shoff := w.fileOffset }
        programHeaders := { ph with
          p_offset := w.eh.e_phoff
          p_memsz := u16 w.programHeaders.length * w.eh.e_phentsize
          p_filesz := u16 w.programHeaders.length * w.eh.e_phentsize
          p_vaddr := w.eh.e_phoff + w.startPVaddr
          p_paddr := w.eh.e_phoff + w.startPVaddr } :: phs } := by
  have tail : ∀ entry : Nat, (do
      let shstrSec ← w.sec P.shstr
      let eh := { w.eh with e_entry := entry, e_shnum := u16 w.sections.length, e_phnum := u16 w.programHeaders.length, e_shstrndx := u16 shstrSec.index, e_shoff := w.fileOffset }
      match w.programHeaders with
      | [] => .error .panic
      | ph :: phs =>
        if eh.e_phnum * eh.e_phentsize ≥ 65536 then .error .panic
        else
          let size := eh.e_phnum * eh.e_phentsize
          let ph := { ph with
            p_offset := eh.e_phoff, p_memsz := size, p_filesz := size
            p_vaddr := eh.e_phoff + w.startPVaddr, p_paddr := eh.e_phoff + w.startPVaddr }
          .ok { w with eh, programHeaders := ph :: phs }) = (.ok w' : M Writer) →
      ∃ s ph phs, w.sec P.shstr = .ok s ∧ w.programHeaders = ph :: phs ∧ u16 w.programHeaders.length * w.eh.e_phentsize < 65536 ∧
      w' = { w with
        eh := { w.eh with e_entry := entry, e_shnum := u16 w.sections.length, e_phnum := u16 w.programHeaders.length, e_shstrndx := u16 s.index, e_shoff := w.fileOffset }
        programHeaders := { ph with
          p_offset := w.eh.e_phoff
          p_memsz := u16 w.programHeaders.length * w.eh.e_phentsize
          p_filesz := u16 w.programHeaders.length * w.eh.e_phentsize
          p_vaddr := w.eh.e_phoff + w.startPVaddr
          p_paddr := w.eh.e_phoff + w.startPVaddr } :: phs } := by
    intro entry h
    rw [bind_ok] at h
    obtain ⟨s, hs, h⟩ := h
    cases hph : w.programHeaders with
    | nil => simp only [hph] at h; cases h
    | cons ph phs =>
      simp only [hph] at h
      split at h
      · cases h
      · next hlt =>
        simp only [ge_iff_le, Nat.not_le] at hlt
        cases h
        exact ⟨s, ph, phs, hs, rfl, hlt, rfl⟩
  unfold finishHeader at h
  cases hg : w.symstr.get b!"_start" with
  | none =>
    simp only [hg] at h
    obtain ⟨s, ph, phs, h1, h2, h3, h4⟩ := tail w.eh.e_entry h
    exact ⟨w.eh.e_entry, s, ph, phs, h1, h2, by simp, fun _ => rfl, h3, h4⟩
  | some e =>
    simp only [hg] at h
    rw [bind_ok] at h
    obtain ⟨y, hy, h⟩ := h
    rw [unwrap_ok] at hy
    obtain ⟨s, ph, phs, h1, h2, h3, h4⟩ := tail y.sym.st_value h
    refine ⟨y.sym.st_value, s, ph, phs, h1, h2, ?_, by simp, h3, h4⟩
    intro e' he'
    cases he'
    exact ⟨y, hy, rfl⟩

theorem Early.placed_eq (st : Early sched w) (hu : Untouched w) :
    st.placed.sections = st.sorted.sections.take 1 ++
      (finalState (fun sh => w.shstr.name sh.sh_name == some b!".interp") sizeofProgramHeader 0x200000 st.sorted.sections).2 ∧
    st.placed.programHeaders = phdrPlaceholder ::
      (finalState (fun sh => w.shstr.name sh.sh_name == some b!".interp") sizeofProgramHeader 0x200000 st.sorted.sections).1.phs ∧
    st.placed.fileOffset =
      (finalState (fun sh => w.shstr.name sh.sh_name == some b!".interp") sizeofProgramHeader 0x200000 st.sorted.sections).1.fileOffset ∧
    st.placed = { st.sorted with sections := st.placed.sections, programHeaders := st.placed.programHeaders, fileOffset := st.placed.fileOffset, pVaddr := st.placed.pVaddr } := by
  obtain ⟨h1, _, _, h2, h3, h4, _, h5, _⟩ := st.sorted_rest
  unfold Early.placed genProgramHeaders
  rw [h1, h2, h3, h4, h5, hu.eh, hu.programHeaders, hu.pVaddr, hu.fileOffset]
  have : initHeader.e_phentsize = sizeofProgramHeader := rfl
  rw [this, generateProgramHeaders_eq]
  simp only [List.append_nil]
  refine ⟨trivial, trivial, trivial, ?_⟩
  rw [← h1, ← hu.eh, ← h2]

/-- from placing to the end only chunks and the header change -/
theorem Stages.final_post (st : Stages sched w) : st.final.sections.map post = st.placed.sections.map post ∧
    st.tables.programHeaders = st.placed.programHeaders ∧ st.final.fileOffset = st.placed.fileOffset ∧
    st.final.shstr = st.sorted.shstr ∧ st.final.symstr = st.sorted.symstr ∧ st.final.dynstr = st.sorted.dynstr ∧
    st.tables.eh = st.sorted.eh ∧ st.tables.startPVaddr = st.sorted.startPVaddr ∧
    st.tables.fileOffset = st.placed.fileOffset ∧ st.final.sections = st.tables.sections ∧ st.final.copyRel = st.sorted.copyRel := by
  have h1 := addDynEntries_rest st.hentries
  have h2 := patchPlt_post st.hpatch
  have h3 := special_post st.hspecial
  have h4 := handleRelocations_post st.hreloc
  obtain ⟨_, h5, h6⟩ := computeTables_ok st.htables
  obtain ⟨entry, s, ph, phs, _, _, _, _, _, h7⟩ := finishHeader_ok st.hfinal
  have ht : st.tables.sections.map post = st.relocated.sections.map post := by
    rw [h5, List.map_map]
    apply List.map_congr_left
    intro s _; rfl
  have e1 : st.entries.sections = st.placed.sections := by rw [h1]; rfl
  have hs : st.final.sections = st.tables.sections := by rw [h7]
  refine ⟨?_, ?_, ?_, ?_, ?_, ?_, ?_, ?_, ?_, hs, ?_⟩
  · rw [hs, ht, h4.1, h3.1, h2.1, e1]
  · rw [h6]; show st.relocated.programHeaders = _
    rw [h4.2.2]; show st.special.programHeaders = _
    rw [h3.2.2]; show st.patched.programHeaders = _
    rw [h2.2]; show st.entries.programHeaders = _
    rw [h1]; rfl
  · rw [h7]; show st.tables.fileOffset = _
    rw [h6]; show st.relocated.fileOffset = _
    rw [h4.2.2]; show st.special.fileOffset = _
    rw [h3.2.2]; show st.patched.fileOffset = _
    rw [h2.2]; show st.entries.fileOffset = _
    rw [h1]; rfl
  · rw [h7]; show st.tables.shstr = _
    rw [h6]; show st.relocated.shstr = _
    rw [h4.2.2]; show st.special.shstr = _
    rw [h3.2.2]; show st.patched.shstr = _
    rw [h2.2]; show st.entries.shstr = _
    rw [h1]; rfl
  · rw [h7]; show st.tables.symstr = _
    rw [h6]; show st.relocated.symstr = _
    rw [h4.2.2]; show st.special.symstr = _
    rw [h3.2.2]; show st.patched.symstr = _
    rw [h2.2]; show st.entries.symstr = _
    rw [h1]; rfl
  · rw [h7]; show st.tables.dynstr = _
    rw [h6]; show st.relocated.dynstr = _
    rw [h4.2.2]; show st.special.dynstr = _
    rw [h3.2.2]; show st.patched.dynstr = _
    rw [h2.2]; show st.entries.dynstr = _
    rw [h1]; rfl
  · rw [h6]; show st.relocated.eh = _
    rw [h4.2.2]; show st.special.eh = _
    rw [h3.2.2]; show st.patched.eh = _
    rw [h2.2]; show st.entries.eh = _
    rw [h1]; rfl
  · rw [h6]; show st.relocated.startPVaddr = _
    rw [h4.2.2]; show st.special.startPVaddr = _
    rw [h3.2.2]; show st.patched.startPVaddr = _
    rw [h2.2]; show st.entries.startPVaddr = _
    rw [h1]; rfl
  · rw [h6]; show st.relocated.fileOffset = _
    rw [h4.2.2]; show st.special.fileOffset = _
    rw [h3.2.2]; show st.patched.fileOffset = _
    rw [h2.2]; show st.entries.fileOffset = _
    rw [h1]; rfl
  · rw [h7]; show st.tables.copyRel = _
    rw [h6]; show st.relocated.copyRel = _
    rw [h4.2.2]; show st.special.copyRel = _
    rw [h3.2.2]; show st.patched.copyRel = _
    rw [h2.2]; show st.entries.copyRel = _
    rw [h1]; rfl

theorem placeSection_end (st : LayoutState) (s : Section) :
    (placeSection st s).2.sh.sh_offset + (placeSection st s).2.sizeOnDisk = (placeSection st s).1.fileOffset := by
  unfold placeSection
  split
  · split
    · simp only [loadHeader, Section.sizeOnDisk, Section.setAddress]
      by_cases hn : s.sh.sh_type = SHT_NOBITS <;> cases st.extra <;> simp [hn] <;> omega
    · rfl
  · simp only
    cases hc : (placeInFile st s).1.cur with
    | none => rfl
    | some ph => rfl

theorem layoutStep_end (isInterp : SectionHeader → Bool) (st : LayoutState) (s : Section) :
    (layoutStep isInterp st s).2.sh.sh_offset + (layoutStep isInterp st s).2.sizeOnDisk = (layoutStep isInterp st s).1.fileOffset := by
  rw [layoutStep_eq]
  exact placeSection_end st s

/-- the file position of the layout loop is the end of the section placed last -/
theorem layoutLoop_end (isInterp : SectionHeader → Bool) (st : LayoutState) (l : List Section) :
    ∀ s ∈ (layoutLoop isInterp st l).2.getLast?, s.sh.sh_offset + s.sizeOnDisk = (layoutLoop isInterp st l).1.fileOffset := by
  intro s hs
  rcases List.eq_nil_or_concat l with rfl | ⟨i, a, rfl⟩
  · cases hs
  · rw [List.concat_eq_append, layoutLoop_append] at hs ⊢
    simp only [layoutLoop] at hs ⊢
    simp only [List.getLast?_append, List.getLast?_singleton, Option.some_or, Option.mem_def, Option.some.injEq] at hs
    subst hs
    exact layoutStep_end isInterp _ a

/-- the final layout: `hdr` bytes of headers, `st` the state of the layout loop at its end -/
structure Laid (w w' : Writer) (hdr : Nat) (st : LayoutState) : Prop where
  inv : LInv 0x200000 hdr st (w'.sections.drop 1)
  sinv : SInv (fun sh => w.shstr.name sh.sh_name == some b!".interp") st (w'.sections.drop 1)
  placed : Placed 0x200000 hdr (w'.sections.drop 1)
  cur : st.cur = none
  loads : st.loads = st.phs.filter isLoad
  hdr : hdr = sizeofHeader + ((st.phs.filter isLoad).length + 3) * sizeofProgramHeader
  phs : ∃ ph, w'.programHeaders = ph :: st.phs ∧ ph.p_type = PT_PHDR ∧ ph.p_flags = PF_R ∧ ph.p_align = 8 ∧
    ph.p_offset = sizeofHeader ∧ ph.p_filesz = u16 w'.programHeaders.length * sizeofProgramHeader ∧
    ph.p_memsz = ph.p_filesz ∧ ph.p_vaddr = 0x200000 + sizeofHeader ∧ ph.p_paddr = ph.p_vaddr
  phnum : w'.eh.e_phnum = u16 w'.programHeaders.length
  shnum : w'.eh.e_shnum = u16 w'.sections.length
  shoff : w'.eh.e_shoff = st.fileOffset
  eh : w'.eh = { initHeader with e_entry := w'.eh.e_entry, e_phnum := w'.eh.e_phnum, e_shnum := w'.eh.e_shnum, e_shoff := w'.eh.e_shoff, e_shstrndx := w'.eh.e_shstrndx }
  fits : w'.eh.e_phnum * sizeofProgramHeader < 65536
  index : ∀ (i : Nat) (s : Section), w'.sections[i]? = some s → s.index = i
  tags : (w'.sections.take 1).map tag = (w.sections.take 1).map tag ∧
    ((w'.sections.drop 1).map tag).Perm ((w.sections.drop 1).map tag)
  shstr : w'.shstr = w.shstr
  symstr : w'.symstr = w.symstr
  dynstr : w'.dynstr = w.dynstr
  secs : w'.sections.length = w.sections.length
  last : ∀ s ∈ (w'.sections.drop 1).getLast?, s.sh.sh_offset + s.sizeOnDisk = st.fileOffset
theorem Stages.laid (hv : sched.Valid) (st : Stages sched w) {hs : HashStyle} {ops : List Op}
    (hsf : SecFacts hs ops w) (hu : Untouched w) (hf : FlagsOk ops) :
    ∃ hdr lst, Laid w st.final hdr lst := by
  have hr := st.ready hv hsf hf
  obtain ⟨p1, p2, p3, p4⟩ := st.placed_eq hu
  obtain ⟨f1, f2, f3, f4, f5, f6, f7, f8, f9, f10, f11⟩ := st.final_post
  obtain ⟨g1, g2, g3, g4, g5, g6, g7, g8, g9⟩ := st.sorted_rest
  obtain ⟨entry, s, ph, phs, h1, h2, _, _, h3, h4⟩ := finishHeader_ok st.hfinal
  have hdrop : (st.final.sections.drop 1).map post =
      (finalState (fun sh => w.shstr.name sh.sh_name == some b!".interp") sizeofProgramHeader 0x200000 st.sorted.sections).2.map post := by
    rw [List.map_drop, f1, ← List.map_drop, p1]
    have : (st.sorted.sections.take 1).length = 1 := by
      have := hr.nonempty
      cases hl : st.sorted.sections with
      | nil => rw [hl] at this; simp at this
      | cons => simp
    rw [List.drop_append_of_le_length (by omega), List.drop_of_length_le (by omega), List.nil_append]
  have hcnt := hr.loads_length (isInterp := fun sh => w.shstr.name sh.sh_name == some b!".interp")
    (phentsize := sizeofProgramHeader) (v0 := 0x200000)
  have hph : ph = phdrPlaceholder ∧ phs =
      (finalState (fun sh => w.shstr.name sh.sh_name == some b!".interp") sizeofProgramHeader 0x200000 st.sorted.sections).1.phs := by
    rw [f2, p2] at h2
    simpa [eq_comm] using h2
  have heh : st.tables.eh = initHeader := by rw [f7, g4, hu.eh]
  have hlen : st.final.programHeaders.length = st.tables.programHeaders.length := by rw [h4]; simp [h2]
  have hpost : ∀ {γ : Type} (F : Section → γ) (g : _ → γ), (∀ s, F s = g (post s)) →
      st.final.sections.map F = st.placed.sections.map F := fun F g hg => map_of_map f1 g hg
  have hcore : ∀ {γ : Type} (F : Section → γ), (∀ s t : Section, SameCore s t → F t = F s) →
      st.placed.sections.map F = st.sorted.sections.map F := by
    intro γ F hF
    rw [p1, List.map_append]
    conv => rhs; rw [← List.take_append_drop 1 st.sorted.sections, List.map_append]
    congr 1
    unfold finalState
    apply List.ext_getElem?
    intro i
    simp only [List.getElem?_map]
    cases hi : (st.sorted.sections.drop 1)[i]? with
    | none =>
      rw [List.getElem?_eq_none_iff] at hi
      rw [List.getElem?_eq_none (by rw [layoutLoop_length]; exact hi)]
    | some s =>
      obtain ⟨t, ht, hc⟩ := layoutLoop_core _ _ _ i s hi
      rw [ht]; simp [hF s t hc]
  have htag : st.final.sections.map tag = st.sorted.sections.map tag := by
    rw [hpost tag (fun p => (p.1, p.2.2.1, p.2.2.2.1, p.2.2.2.2.sh_name, p.2.2.2.2.sh_type, p.2.2.2.2.sh_flags, p.2.2.2.2.sh_addralign, p.2.2.2.2.sh_entsize)) (fun _ => rfl)]
    apply hcore
    intro s t hc
    obtain ⟨e1, e2, e3, e4, e5, _⟩ := hc
    unfold tag
    rw [e1, e3, e4, e5]
  have hidx : st.final.sections.map (·.index) = st.sorted.sections.map (·.index) := by
    rw [hpost (·.index) (fun p => p.2.1) (fun _ => rfl)]
    apply hcore
    intro s t hc
    exact hc.2.1
  refine ⟨countProgramHeaders st.sorted.sections * sizeofProgramHeader + sizeofHeader,
    (finalState (fun sh => w.shstr.name sh.sh_name == some b!".interp") sizeofProgramHeader 0x200000 st.sorted.sections).1,
    hr.inv.congr hdrop, hr.sinv.congr hdrop, hr.minv.placed hdrop, hr.cur_none, hr.loads, ?_, ?_, ?_, ?_, ?_, ?_, ?_, ?_, ?_, ?_, ?_, ?_, ?_, ?_⟩
  · rw [← hcnt]; omega
  · rw [hlen]
    have hst : st.tables.startPVaddr = 0x200000 := by rw [f8, g7, hu.startPVaddr]
    rw [h4]
    rw [hph.1, hph.2, heh, hst]
    exact ⟨_, rfl, rfl, rfl, rfl, rfl, rfl, rfl, rfl, rfl⟩
  · rw [hlen, h4]
  · rw [f10, h4]
  · rw [h4]; show st.tables.fileOffset = _
    rw [f9, p3]
  · rw [h4]; simp only [heh]
  · rw [h4]
    have : st.tables.eh.e_phentsize = sizeofProgramHeader := by rw [heh]; rfl
    simp only
    rw [← this]; exact h3
  · intro i s hs
    have h := congrArg (·[i]?) hidx
    simp only [List.getElem?_map, hs, Option.map_some] at h
    cases ht : st.sorted.sections[i]? with
    | none => rw [ht] at h; cases h
    | some t =>
      rw [ht] at h
      have := sortSecs_index st.hsort i t ht
      simp only [Option.map_some, Option.some.injEq] at h
      omega
  · have := sortSecs_perm hv st.hsort (F := tag) (fun _ _ => rfl)
    rw [List.map_take, List.map_drop, htag, ← List.map_take, ← List.map_drop]
    rw [List.map_take (l := st.dynamic.sections), List.map_drop (l := st.dynamic.sections), st.dynamic_tag hsf.known,
      ← List.map_take, ← List.map_drop] at this
    exact this
  · rw [f4, g1]
  · rw [f5, g2]
  · rw [f6, g3]
  · have h5 := congrArg List.length htag
    have h6 := congrArg List.length (st.dynamic_tag hsf.known)
    obtain ⟨null, rest, e1, _, e2⟩ := sortSecs_ok st.hsort
    have h7 : st.sorted.sections.length = st.dynamic.sections.length := by
      rw [e2, e1]
      simp [((stableSort_perm sectionLe (sched.secOrder rest)).trans (hv.secOrder rest)).length_eq]
    simp only [List.length_map] at h5 h6
    omega
  · intro s hs
    have h5 := congrArg List.getLast? hdrop
    simp only [List.getLast?_map] at h5
    rw [Option.mem_def] at hs
    rw [hs] at h5
    cases hg : (finalState (fun sh => w.shstr.name sh.sh_name == some b!".interp") sizeofProgramHeader 0x200000 st.sorted.sections).2.getLast? with
    | none => rw [hg] at h5; cases h5
    | some t =>
      rw [hg] at h5
      simp only [Option.map_some, Option.some.injEq] at h5
      have := layoutLoop_end _ _ _ t hg
      rw [post_disk h5, show s.sh = t.sh from congrArg (·.2.2.2.2) h5]
      exact this

end Writer

theorem Run.laid {opts : Options} {ops : List Op} {sched : Sched} {w w' : Writer} {file : Bytes} {secs : List Section}
    (h : Run opts ops sched w w' file secs) (hf : FlagsOk ops) : ∃ hdr lst, Laid w w' hdr lst := by
  obtain ⟨st, rfl⟩ := computeSections_stages h.compute
  exact st.laid h.valid h.hist.secFacts h.hist.untouched hf

/-! ### What `write_to_disk` does to sections -/

/-- a section before and after `finalize`: only the link, the size of `.copyrel` and the contents of
the symbol tables change -/
structure Finalized (w : Writer) (s t : Section) : Prop where
  ptr : t.ptr = s.ptr
  index : t.index = s.index
  link : t.link = s.link
  kind : t.kind = s.kind
  sh : t.sh = { s.sh with
    sh_link := t.sh.sh_link
    sh_size := if s.kind = .copyRel then w.copyRel.size else s.sh.sh_size }

theorem Finalized.addr {w : Writer} {s t : Section} (h : Finalized w s t) : t.sh.sh_addr = s.sh.sh_addr := by rw [h.sh]
theorem Finalized.offset {w : Writer} {s t : Section} (h : Finalized w s t) : t.sh.sh_offset = s.sh.sh_offset := by rw [h.sh]
theorem Finalized.flags {w : Writer} {s t : Section} (h : Finalized w s t) : t.sh.sh_flags = s.sh.sh_flags := by rw [h.sh]
theorem Finalized.type {w : Writer} {s t : Section} (h : Finalized w s t) : t.sh.sh_type = s.sh.sh_type := by rw [h.sh]
theorem Finalized.align {w : Writer} {s t : Section} (h : Finalized w s t) : t.sh.sh_addralign = s.sh.sh_addralign := by rw [h.sh]
theorem Finalized.name {w : Writer} {s t : Section} (h : Finalized w s t) : t.sh.sh_name = s.sh.sh_name := by rw [h.sh]
theorem Finalized.alloc {w : Writer} {s t : Section} (h : Finalized w s t) : t.alloc = s.alloc := by
  unfold Section.alloc; rw [h.flags]
theorem Finalized.size {w : Writer} {s t : Section} (h : Finalized w s t) (hk : t.kind ≠ .copyRel) : t.sh.sh_size = s.sh.sh_size := by
  rw [h.kind] at hk; rw [h.sh]; simp [hk]

theorem finalizeSec_ok {sched : Sched} {w : Writer} {s t : Section} (h : finalizeSec sched w s = .ok t) : Finalized w s t := by
  have tail : ∀ u : Section, (match u.link with
      | none => .ok u
      | some p => do
        let l ← w.sec p
        .ok { u with sh := { u.sh with sh_link := u32 l.index } }) = (.ok t : M Section) →
      t = { u with sh := { u.sh with sh_link := t.sh.sh_link } } := by
    intro u h
    cases hl : u.link with
    | none => rw [hl] at h; cases h; rw [← hl]
    | some p =>
      rw [hl] at h
      simp only [bind_ok] at h
      obtain ⟨l, _, h⟩ := h
      cases h; rw [← hl]
  unfold finalizeSec at h
  cases hk : s.kind with
  | symtab =>
    simp only [hk] at h
    rw [bind_ok] at h
    obtain ⟨u, h1, h2⟩ := h
    obtain ⟨_, rfl⟩ := modifyChunk_ok h1
    rw [tail _ h2]
    exact ⟨rfl, rfl, rfl, hk ▸ rfl, by simp [hk]⟩
  | dynsym =>
    simp only [hk] at h
    rw [bind_ok] at h
    obtain ⟨u, h1, h2⟩ := h
    obtain ⟨_, rfl⟩ := modifyChunk_ok h1
    rw [tail _ h2]
    exact ⟨rfl, rfl, rfl, hk ▸ rfl, by simp [hk]⟩
  | copyRel =>
    simp only [hk] at h
    rw [tail (setSize w.copyRel.size s) h]
    exact ⟨rfl, rfl, rfl, rfl, by simp [setSize, hk]⟩
  | _ =>
    simp only [hk] at h
    rw [tail s h]
    exact ⟨rfl, rfl, rfl, rfl, by simp [hk]⟩

theorem writeSections_ok {sched : Sched} {w : Writer} : ∀ {l : List Section} {o : Nat} {bs : Bytes} {secs : List Section},
    writeSections sched w o l = .ok (bs, secs) →
    secs.length = l.length ∧ ∀ (i : Nat) (s t : Section), l[i]? = some s → secs[i]? = some t → finalizeSec sched w s = .ok t := by
  intro l
  induction l with
  | nil => intro o bs secs h; cases h; simp
  | cons a l ih =>
    intro o bs secs h
    simp only [writeSections, bind_ok, Prod.exists] at h
    obtain ⟨t, h1, bs', secs', h2, h3⟩ := h
    cases h3
    obtain ⟨hl, hi⟩ := ih h2
    refine ⟨by simp [hl], ?_⟩
    intro i s t' hs ht
    cases i with
    | zero => simp at hs ht; subst hs ht; exact h1
    | succ i => simp at hs ht; exact hi i s t' hs ht

theorem Run.secs_length {opts : Options} {ops : List Op} {sched : Sched} {w w' : Writer} {file : Bytes} {secs : List Section}
    (h : Run opts ops sched w w' file secs) : secs.length = w'.sections.length := by
  have := h.write
  simp only [writeToDisk, bind_ok, Prod.exists] at this
  obtain ⟨_, _, h1, h2⟩ := this
  cases h2
  exact (writeSections_ok h1).1

theorem Run.finalized {opts : Options} {ops : List Op} {sched : Sched} {w w' : Writer} {file : Bytes} {secs : List Section}
    (h : Run opts ops sched w w' file secs) {i : Nat} {t : Section} (ht : secs[i]? = some t) :
    ∃ s, w'.sections[i]? = some s ∧ Finalized w' s t ∧ finalizeSec sched w' s = .ok t := by
  have hlen := h.secs_length
  have := h.write
  simp only [writeToDisk, bind_ok, Prod.exists] at this
  obtain ⟨_, _, h1, h2⟩ := this
  cases h2
  obtain ⟨hi, _⟩ := List.getElem?_eq_some_iff.1 ht
  have hs : w'.sections[i]? = some (w'.sections[i]'(by omega)) := List.getElem?_eq_getElem _
  have h3 := (writeSections_ok h1).2 i _ t hs ht
  exact ⟨_, hs, finalizeSec_ok h3, h3⟩

end Dld
