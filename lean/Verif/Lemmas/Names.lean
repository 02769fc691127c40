import Verif.Lemmas.Run
/-! # Names and identities of the writer's own sections in a complete link -/
namespace Dld
open Writer

/-- the name of each of the writer's own sections -/
def ptrName : Nat → Name
  | 0 => []
  | 1 => b!".shstrtab"
  | 2 => b!".strtab"
  | 3 => b!".dynstr"
  | 4 => b!".interp"
  | 5 => b!".got"
  | 6 => b!".got.plt"
  | 7 => b!".plt"
  | 8 => b!".symtab"
  | 9 => b!".dynsym"
  | 10 => b!".dynamic"
  | 11 => b!".rela.dyn"
  | 12 => b!".rela.plt"
  | 13 => b!".copyrel"
  | 14 => b!".hash"
  | _ => b!".gnu.hash"

theorem base_ptrName (hs : HashStyle) :
    (baseNames hs) = ((baseIdents hs).map (·.1)).map ptrName := by cases hs <;> decide

theorem ptrName_inj : ∀ p < P.first, ∀ q < P.first, ptrName p = ptrName q → p = q := by decide

/-- the name of a section as written in its header -/
def nameOf (w : Writer) (s : Section) : Option Name := w.shstr.name s.sh.sh_name

theorem WInv.name_ptr {opts : Options} {w0 w : Writer} {ops : List Op} {pn : List Name}
    (hI : WInv opts w0 ops w pn) (h0 : Writer.new opts = .ok w0) (hlt : w.shstr.totalLen < 2 ^ 32)
    {s : Section} (hs : s ∈ w.sections) :
    (s.ptr < P.first ∧ nameOf w s = some (ptrName s.ptr)) ∨
    (P.first ≤ s.ptr ∧ ∃ n ∈ pn, nameOf w s = some n) := by
  obtain ⟨i, hi, rfl⟩ := List.getElem_of_mem hs
  have h1 := congrArg (·[i]?) (hI.sec_names h0 hlt)
  have h2 := congrArg (·[i]?) (hI.ptrs h0)
  simp only [List.getElem?_map, List.getElem?_eq_getElem hi, Option.map_some] at h1 h2
  have hb : (baseNames opts.hashStyle).length = (baseIdents opts.hashStyle).length := by
    rw [(base_length _).1, (base_length _).2]
  by_cases hlt : i < (baseIdents opts.hashStyle).length
  · left
    rw [List.getElem?_append_left (by simpa using hlt)] at h2
    have hp := (baseIdents_ptr opts.hashStyle).2 _ (List.mem_of_getElem? h2.symm)
    refine ⟨hp, ?_⟩
    rw [List.getElem?_append_left (by omega), base_ptrName, List.getElem?_map, ← h2] at h1
    simpa [nameOf] using h1
  · right
    rw [List.getElem?_append_right (by simpa using hlt)] at h2
    have hm := List.mem_of_getElem? h2.symm
    rw [List.mem_range'] at hm
    obtain ⟨k, _, hk⟩ := hm
    refine ⟨by omega, ?_⟩
    rw [List.getElem?_append_right (by omega)] at h1
    cases hp : pn[i - (baseNames opts.hashStyle).length]? with
    | none => rw [hp] at h1; cases h1
    | some n =>
      rw [hp] at h1
      exact ⟨n, List.mem_of_getElem? hp, by simpa [nameOf] using h1⟩

theorem mem_baseNames {hs : HashStyle} {p : Nat} (h : p ∈ (baseIdents hs).map (·.1)) : ptrName p ∈ baseNames hs := by
  rw [base_ptrName]; exact List.mem_map_of_mem h

/-- a name of the writer's own identifies its section -/
theorem WInv.name_iff {opts : Options} {w0 w : Writer} {ops : List Op} {pn : List Name}
    (hI : WInv opts w0 ops w pn) (h0 : Writer.new opts = .ok w0) (hlt : w.shstr.totalLen < 2 ^ 32)
    {s : Section} (hs : s ∈ w.sections) {p : Nat} (hp : p ∈ (baseIdents opts.hashStyle).map (·.1)) :
    nameOf w s = some (ptrName p) ↔ s.ptr = p := by
  have hp1 := (baseIdents_ptr opts.hashStyle).2 p hp
  rcases hI.name_ptr h0 hlt hs with ⟨h1, h2⟩ | ⟨h1, n, hn, h2⟩
  · rw [h2]
    constructor
    · intro h; exact ptrName_inj _ h1 _ hp1 (by simpa using h)
    · intro h; rw [h]
  · rw [h2]
    constructor
    · intro h
      simp only [Option.some.injEq] at h
      subst h
      exact absurd rfl ((List.nodup_append.1 hI.names_nodup).2.2 _ (mem_baseNames hp) _ hn)
    · intro h; omega

theorem count_ptr {l : List Section} {p : Nat} {s : Section} (hn : (l.map (·.ptr)).Nodup) (hs : s ∈ l) (hp : s.ptr = p) :
    l.filter (fun t => t.ptr == p) = [s] := by
  induction l with
  | nil => cases hs
  | cons a l ih =>
    simp only [List.map_cons, List.nodup_cons] at hn
    rcases List.mem_cons.1 hs with rfl | hs
    · rw [List.filter_cons, if_pos (by simpa using hp)]
      congr 1
      rw [List.filter_eq_nil_iff]
      intro t ht
      simp only [beq_iff_eq]
      intro h
      exact hn.1 (List.mem_map.2 ⟨t, ht, by rw [h, hp]⟩)
    · rw [List.filter_cons, if_neg, ih hn.2 hs]
      simp only [beq_iff_eq]
      intro h
      exact hn.1 (List.mem_map.2 ⟨s, hs, by rw [h, hp]⟩)

/-! ### The sections of a finished writer -/

/-- identities, kinds, names, types and flags survive the link -/
structure FinalFacts (hs : HashStyle) (ops : List Op) (w w' : Writer) : Prop where
  known : ∀ s ∈ w'.sections, Known hs ops s
  nodup : (w'.sections.map (·.ptr)).Nodup
  head : ∃ null rest, w'.sections = null :: rest ∧ null.ptr = P.null
  has : ∀ p ∈ (baseIdents hs).map (·.1), ∃ s ∈ w'.sections, s.ptr = p
  tags : ∀ s ∈ w'.sections, ∃ t ∈ w.sections, tag s = tag t
  tags' : ∀ t ∈ w.sections, ∃ s ∈ w'.sections, tag s = tag t

theorem Writer.Laid.facts {hs : HashStyle} {ops : List Op} {w w' : Writer} {hdr : Nat} {st : LayoutState}
    (h : Laid w w' hdr st) (hsf : SecFacts hs ops w) : FinalFacts hs ops w w' := by
  have hperm : (w'.sections.map tag).Perm (w.sections.map tag) := by
    have h1 := List.take_append_drop 1 w'.sections
    have h2 := List.take_append_drop 1 w.sections
    rw [← h1, ← h2, List.map_append, List.map_append, h.tags.1]
    exact h.tags.2.append_left _
  have ht : ∀ s ∈ w'.sections, ∃ t ∈ w.sections, tag s = tag t := by
    intro s hs
    obtain ⟨t, ht, he⟩ := List.mem_map.1 (hperm.mem_iff.1 (List.mem_map_of_mem hs))
    exact ⟨t, ht, he.symm⟩
  have ht' : ∀ t ∈ w.sections, ∃ s ∈ w'.sections, tag s = tag t := by
    intro s hs
    obtain ⟨t, ht, he⟩ := List.mem_map.1 (hperm.mem_iff.2 (List.mem_map_of_mem hs))
    exact ⟨t, ht, he⟩
  have hptr : ∀ l : List Section, l.map (·.ptr) = (l.map tag).map (·.1) := fun l => by
    rw [List.map_map]; rfl
  refine ⟨?_, ?_, ?_, ?_, ht, ht'⟩
  · intro s hs
    obtain ⟨t, ht, he⟩ := ht s hs
    have hk := hsf.known t ht
    simp only [tag, Prod.mk.injEq] at he
    obtain ⟨e1, e2, e3, e4, e5, e6, e7, e8⟩ := he
    unfold Known Section.origin at *
    rw [e1, e2, e3, e5, e6, e8]; exact hk
  · have := hsf.nodup
    rw [hptr] at this ⊢
    exact ((hperm.map _).nodup_iff).2 this
  · obtain ⟨null, rest, hw, hn⟩ := hsf.head
    have := h.tags.1
    rw [hw] at this
    cases hw' : w'.sections with
    | nil => rw [hw'] at this; simp at this
    | cons a l =>
      rw [hw'] at this
      simp only [List.take_succ_cons, List.take_zero, List.map_cons, List.map_nil, List.cons.injEq, and_true, tag, Prod.mk.injEq] at this
      exact ⟨a, l, rfl, by rw [this.1, hn]⟩
  · intro p hp
    obtain ⟨s, hs, hsp⟩ := hsf.has p hp
    obtain ⟨t, ht, he⟩ := ht' s hs
    simp only [tag, Prod.mk.injEq] at he
    exact ⟨t, ht, by rw [he.1, hsp]⟩

/-- names at the end -/
theorem Writer.Laid.name_iff {opts : Options} {w0 w w' : Writer} {ops : List Op} {pn : List Name} {hdr : Nat} {st : LayoutState}
    (h : Laid w w' hdr st) (hsf : SecFacts opts.hashStyle ops w)
    (hI : WInv opts w0 ops w pn) (h0 : Writer.new opts = .ok w0) (hlt : w.shstr.totalLen < 2 ^ 32)
    {s : Section} (hs : s ∈ w'.sections) {p : Nat} (hp : p ∈ (baseIdents opts.hashStyle).map (·.1)) :
    nameOf w s = some (ptrName p) ↔ s.ptr = p := by
  obtain ⟨t, ht, he⟩ := (h.facts hsf).tags s hs
  simp only [tag, Prod.mk.injEq] at he
  have := hI.name_iff h0 hlt ht hp
  unfold nameOf at *
  rw [he.1, he.2.2.2.1]; exact this

theorem Known.dynamic_type {hs : HashStyle} {ops : List Op} {s : Section} (hk : Known hs ops s) (hnd : NoDynamicPush ops) :
    s.sh.sh_type = SHT_DYNAMIC ↔ s.ptr = P.dynamic := by
  rcases hk with h | ⟨h, _, _, n, sh, d, r, h1, _, h2, _⟩
  · have h := origins_cases h
    simp only [Section.origin, Prod.mk.injEq] at h
    simp only [SHT_DYNAMIC, SHT_PROGBITS, SHT_STRTAB, SHT_SYMTAB, SHT_DYNSYM, SHT_RELA, SHT_NOBITS, SHT_HASH, SHT_GNU_HASH,
      P.null, P.shstr, P.symstr, P.dynstr, P.interp, P.got, P.gotPlt, P.plt, P.sym, P.dynsym, P.dynamic, P.relaDyn, P.relaPlt,
      P.copyRel, P.hash, P.gnuHash] at h ⊢
    omega
  · rw [h2]
    constructor
    · intro e; exact absurd e (hnd n sh d r h1)
    · intro e; simp [P.first, P.dynamic] at h e; omega

/-- the section behind `PT_DYNAMIC` and the section behind `PT_INTERP` -/
theorem Writer.Laid.pType_iff {opts : Options} {w0 w w' : Writer} {ops : List Op} {pn : List Name} {hdr : Nat} {st : LayoutState}
    (h : Laid w w' hdr st) (hsf : SecFacts opts.hashStyle ops w)
    (hI : WInv opts w0 ops w pn) (h0 : Writer.new opts = .ok w0) (hlt : w.shstr.totalLen < 2 ^ 32) (hnd : NoDynamicPush ops)
    {s : Section} (hs : s ∈ w'.sections) :
    (pType (w.shstr.name s.sh.sh_name == some b!".interp") s.sh = some PT_DYNAMIC ↔ s.ptr = P.dynamic) ∧
    (pType (w.shstr.name s.sh.sh_name == some b!".interp") s.sh = some PT_INTERP ↔ s.ptr = P.interp) := by
  have hk := ((h.facts hsf).known s hs).dynamic_type hnd
  have hn := h.name_iff hsf hI h0 hlt hs (base_has _ P.interp (by simp))
  rw [show ptrName P.interp = b!".interp" from rfl] at hn
  unfold nameOf at hn
  have hne : P.interp ≠ P.dynamic := by decide
  unfold pType
  by_cases hd : s.sh.sh_type = SHT_DYNAMIC
  · rw [if_pos hd]
    have := hk.1 hd
    simp [this, PT_DYNAMIC, PT_INTERP, P.dynamic, P.interp]
  · rw [if_neg hd]
    have h1 : s.ptr ≠ P.dynamic := fun e => hd (hk.2 e)
    by_cases hi : w.shstr.name s.sh.sh_name = some b!".interp"
    · rw [if_pos (by simpa using hi)]
      simp only [hn.1 hi, and_true]
      simp [PT_DYNAMIC, PT_INTERP, P.dynamic, P.interp]
    · rw [if_neg (by simpa using hi)]
      have h2 : s.ptr ≠ P.interp := fun e => hi (hn.2 e)
      simp [h1, h2]

/-- the number of program headers -/
theorem Writer.Laid.count {opts : Options} {w0 w w' : Writer} {ops : List Op} {pn : List Name} {hdr : Nat} {st : LayoutState}
    (h : Laid w w' hdr st) (hsf : SecFacts opts.hashStyle ops w)
    (hI : WInv opts w0 ops w pn) (h0 : Writer.new opts = .ok w0) (hlt : w.shstr.totalLen < 2 ^ 32) (hnd : NoDynamicPush ops) :
    (st.phs.filter fun ph => ph.p_type == PT_DYNAMIC).length = 1 ∧ (st.phs.filter fun ph => ph.p_type == PT_INTERP).length = 1 ∧
    w'.programHeaders.length = (st.phs.filter isLoad).length + 3 ∧ hdr = sizeofHeader + w'.programHeaders.length * sizeofProgramHeader := by
  have hff := h.facts hsf
  have hcount : ∀ p ∈ [P.dynamic, P.interp], ((w'.sections.drop 1).filter fun s => s.ptr == p).length = 1 := by
    intro p hp
    have hp1 : p ∈ (baseIdents opts.hashStyle).map (·.1) := by
      apply base_has; simp only [List.mem_cons, List.not_mem_nil, or_false] at hp ⊢; rcases hp with rfl | rfl <;> simp
    obtain ⟨s, hs, hsp⟩ := hff.has p hp1
    obtain ⟨null, rest, hw, hnull⟩ := hff.head
    have hn := hff.nodup
    rw [hw] at hs hn ⊢
    simp only [List.map_cons, List.nodup_cons] at hn
    have hne : p ≠ P.null := by
      simp only [List.mem_cons, List.not_mem_nil, or_false] at hp; rcases hp with rfl | rfl <;> decide
    rcases List.mem_cons.1 hs with rfl | hs
    · exact absurd (hsp.symm.trans hnull) hne
    · simp only [List.drop_succ_cons, List.drop_zero]
      rw [count_ptr hn.2 hs hsp]; rfl
  have hfil : ∀ ty p, (∀ s ∈ w'.sections.drop 1, (pType (w.shstr.name s.sh.sh_name == some b!".interp") s.sh == some ty) = (s.ptr == p)) →
      ((w'.sections.drop 1).filter fun s => pType (w.shstr.name s.sh.sh_name == some b!".interp") s.sh == some ty) =
      ((w'.sections.drop 1).filter fun s => s.ptr == p) := fun ty p hp => List.filter_congr hp
  have hbool : ∀ {a b : Bool}, (a = true ↔ b = true) → a = b := by decide
  have h1 : (st.phs.filter fun ph => ph.p_type == PT_DYNAMIC).length = 1 := by
    rw [h.sinv.cnt PT_DYNAMIC (by decide), hfil PT_DYNAMIC P.dynamic, hcount _ (by simp)]
    intro s hs
    apply hbool
    simp only [beq_iff_eq]
    exact (h.pType_iff hsf hI h0 hlt hnd (List.mem_of_mem_drop hs)).1
  have h2 : (st.phs.filter fun ph => ph.p_type == PT_INTERP).length = 1 := by
    rw [h.sinv.cnt PT_INTERP (by decide), hfil PT_INTERP P.interp, hcount _ (by simp)]
    intro s hs
    apply hbool
    simp only [beq_iff_eq]
    exact (h.pType_iff hsf hI h0 hlt hnd (List.mem_of_mem_drop hs)).2
  have hsum : (st.phs.filter fun x => !isLoad x).length =
      (st.phs.filter fun ph => ph.p_type == PT_DYNAMIC).length +
      (st.phs.filter fun ph => ph.p_type == PT_INTERP).length := by
    have hsrc : ∀ ph ∈ st.phs, isLoad ph = false →
        ph.p_type = PT_DYNAMIC ∨ ph.p_type = PT_INTERP := by
      intro ph hph hnl
      obtain ⟨a, s, b, old, _, h2, _⟩ := h.sinv.src ph hph hnl
      exact specialOf_not_load _ _ _ ph h2
    generalize st.phs = phs at hsrc
    clear h1 h2 hfil
    induction phs with
    | nil => rfl
    | cons a l ih =>
      have ih := ih (fun ph hph => hsrc ph (by simp [hph]))
      by_cases ha : isLoad a = true
      · have hty : a.p_type = PT_LOAD := by simpa [isLoad] using ha
        simp only [List.filter_cons, ha, hty]
        simp only [PT_LOAD, PT_DYNAMIC, PT_INTERP] at ih ⊢
        simpa using ih
      · rcases hsrc a (by simp) (by simpa using ha) with h | h <;>
          simp [List.filter_cons, ha, h, ih] <;> simp [PT_DYNAMIC, PT_INTERP] <;> omega
  have hl := length_filter_split isLoad st.phs
  obtain ⟨ph, hph, _⟩ := h.phs
  have h3 : w'.programHeaders.length = (st.phs.filter isLoad).length + 3 := by
    rw [hph, List.length_cons]; omega
  exact ⟨h1, h2, h3, by rw [h3]; exact h.hdr⟩

end Dld
