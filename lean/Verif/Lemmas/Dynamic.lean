import Verif.Spec.Dynamic
import Verif.Lemmas.FileRead
/-! # The dynamic section -/
namespace Dld
open Writer Spec StringTable

variable {opts : Options} {ops : List Op} {sched : Sched} {w w' : Writer} {file : Bytes} {secs : List Section}

/-! ### `DT_NEEDED` -/

theorem newlyNeeded_append (seen : List Name) (a b : List Op) :
    newlyNeeded seen (a ++ b) = newlyNeeded seen a ++ newlyNeeded ((dynNames a).reverse ++ seen) b := by
  induction a generalizing seen with
  | nil => simp [newlyNeeded, dynNames]
  | cons op a ih =>
    cases op with
    | needed n =>
      simp only [List.cons_append, newlyNeeded, dynNames, List.reverse_cons, List.append_assoc]
      split
      · next h =>
        rw [ih]
        congr 1
        have : ∀ (b : List Op) (s s' : List Name), (∀ n, n ∈ s ↔ n ∈ s') → newlyNeeded s b = newlyNeeded s' b := by
          intro b
          induction b with
          | nil => intros; rfl
          | cons op b ih =>
            intro s s' hs
            cases op with
            | needed n =>
              simp only [newlyNeeded, hs]
              rw [ih s s' hs, ih (n :: s) (n :: s') (fun m => by simp [hs])]
            | dynsym _ n _ _ => exact ih _ _ (fun m => by simp [hs])
            | _ => exact ih s s' hs
        apply this
        intro m
        simp only [List.mem_append, List.mem_cons, List.mem_reverse, List.not_mem_nil, false_or]
        constructor
        · rintro (h1 | h1)
          · exact .inl h1
          · exact .inr (.inr h1)
        · rintro (h1 | h1 | h1)
          · exact .inl h1
          · subst h1; exact .inr h
          · exact .inr h1
      · rw [ih]; simp
    | dynsym _ n _ _ => simp [newlyNeeded, dynNames, ih]
    | _ => simpa [newlyNeeded, dynNames] using ih seen

theorem Step.entries {w w' : Writer} {op : Op} (h : Step w op w') (hop : ∀ n, op ≠ .needed n) : w'.dynEntries = w.dynEntries := by
  cases h with
  | push h =>
    unfold Writer.pushSection at h
    simp only at h
    split at h
    · cases h; rfl
    · split at h
      · cases h
      · split at h
        · cases h; rfl
        · split at h
          · cases h
          · cases h; rfl
  | sym h =>
    simp only [Writer.addSymbol] at h
    split at h
    · cases h
    · simp only [bind_ok] at h
      obtain ⟨w1, h1, h2⟩ := h
      cases h2
      rw [noteSymbol_rest h1]
  | dynsym h =>
    simp only [Writer.addDynSymbol] at h
    split at h
    · cases h
    · split at h
      · cases h; rfl
      · split at h
        · cases h
        · cases h; rfl
  | reloc h =>
    simp only [Writer.addRelocation] at h
    split at h
    · cases h
    · rw [modChunk_rest h]
  | needed => exact absurd rfl (hop _)

/-- the entries of the dynamic section before `compute_sections` -/
theorem Hist.needed (h : Hist opts ops w) : ∃ f, opts.dynamicLinker.file = some f ∧
    Holds w.dynstr (internAll [[]] (f :: dynNames ops)) ∧
    (∀ n ∈ f :: newlyNeeded [f, []] ops, n ∈ internAll [[]] (f :: dynNames ops)) ∧
    w.dynEntries = (f :: newlyNeeded [f, []] ops).map fun n => (.needed, nameOff (internAll [[]] (f :: dynNames ops)) n) := by
  induction h with
  | init h =>
    obtain ⟨f, hf, _, h2⟩ := (Hist.init h).strs
    refine ⟨f, hf, h2, ?_, ?_⟩
    · intro n hn
      simp only [newlyNeeded, List.mem_singleton] at hn
      rw [mem_internAll]; simp [hn]
    · simp only [Writer.new, bind_ok] at h
      obtain ⟨f', hf', h⟩ := h
      cases h
      rw [unwrap_ok, hf] at hf'
      cases hf'
      simp only [newlyNeeded, List.map_cons, List.map_nil, dynNames]
      rw [(holds_default.entry f).2]
      rfl
  | @step ops op w w' h hs ih =>
    obtain ⟨f, hf, h1, h2, h3⟩ := ih
    obtain ⟨f', hf', _, h4⟩ := (h.step hs).strs
    rw [hf] at hf'; cases hf'
    have hpre : internAll [[]] (f :: dynNames ops) <+: internAll [[]] (f :: dynNames (ops ++ [op])) := by
      rw [dynNames_append, ← List.cons_append, internAll_append]; exact internAll_prefix _ _
    have hold : (f :: newlyNeeded [f, []] ops).map (fun n => (DynTag.needed, nameOff (internAll [[]] (f :: dynNames (ops ++ [op]))) n)) =
        (f :: newlyNeeded [f, []] ops).map fun n => (.needed, nameOff (internAll [[]] (f :: dynNames ops)) n) := by
      apply List.map_congr_left
      intro n hn
      rw [nameOff_prefix hpre (h2 n hn)]
    refine ⟨f, hf, h4, ?_, ?_⟩
    · intro n hn
      rw [newlyNeeded_append, ← List.cons_append, List.mem_append] at hn
      rcases hn with hn | hn
      · exact hpre.subset (h2 n hn)
      · rw [mem_internAll, dynNames_append]
        cases op with
        | needed m =>
          simp only [newlyNeeded] at hn
          split at hn
          · cases hn
          · simp only [List.mem_singleton] at hn; subst hn; simp [dynNames]
        | _ => simp [newlyNeeded] at hn
    · rw [newlyNeeded_append, ← List.cons_append, List.map_append, hold, ← h3]
      cases op with
      | needed m =>
        cases hs
        simp only [addNeeded, newlyNeeded]
        have hiff : m ∈ (dynNames ops).reverse ++ [f, []] ↔ m ∈ internAll [[]] (f :: dynNames ops) := by
          rw [mem_internAll]
          simp only [List.mem_append, List.mem_reverse, List.mem_cons, List.not_mem_nil, or_false]
          constructor
          · rintro (h | h | h)
            · exact .inr (.inr h)
            · exact .inr (.inl h)
            · exact .inl h
          · rintro (h | h | h)
            · exact .inr (.inr h)
            · exact .inr (.inl h)
            · exact .inl h
        by_cases hm : m ∈ internAll [[]] (f :: dynNames ops)
        · rw [if_pos (hiff.2 hm), h1.getOrCreate_mem hm]; simp
        · rw [if_neg (fun h => hm (hiff.1 h)), h1.getOrCreate_new hm]
          simp only [if_true, List.map_cons, List.map_nil]
          congr 3
          have hin : intern (internAll [[]] (f :: dynNames ops)) m = internAll [[]] (f :: dynNames (ops ++ [.needed m])) := by
            rw [dynNames_append, ← List.cons_append, internAll_append]; rfl
          have := (h1.entry m).2
          rw [h1.getOrCreate_new hm, hin] at this
          exact this
      | _ =>
        rw [hs.entries (fun _ h => by cases h)]
        simp [newlyNeeded]

/-! ### Names, identities and types -/

theorem ptrName_reserved : ∀ p < P.first, p ≠ P.null → ptrName p ∈ reservedNames := by decide

/-- the name of an own section identifies it -/
theorem Run.name_own (h : Run opts ops sched w w' file secs) (hg : GoodInputs ops) (hn : NamesFit w) {t : Section} (ht : t ∈ secs)
    {p : Nat} (hp : p < P.first) : Dld.nameOf w t = some (ptrName p) ↔ t.ptr = p := by
  obtain ⟨w0, pn, h0, hI⟩ := h.hist.winv
  obtain ⟨s, hs, e⟩ := h.origin hg.flags ht
  have e1 : t.ptr = s.ptr := congrArg (·.1) e
  have e2 : Dld.nameOf w t = Dld.nameOf w s := by unfold Dld.nameOf; rw [show t.sh.sh_name = s.sh.sh_name from congrArg (·.2.2.2.1) e]
  rw [e1, e2]
  rcases hI.name_ptr h0 hn hs with ⟨h1, h2⟩ | ⟨h1, n, hm, h2⟩
  · rw [h2]
    constructor
    · intro he; exact ptrName_inj _ h1 _ hp (by simpa using he)
    · intro he; rw [he]
  · rw [h2]
    obtain ⟨h3, sh, d, r, h4⟩ := hI.pushed_name hm
    have h5 := hg.clean.names n sh d r h4
    constructor
    · intro he
      simp only [Option.some.injEq] at he
      subst he
      by_cases h6 : p = P.null
      · subst h6; exact absurd (by cases opts.hashStyle <;> decide) h3
      · exact absurd (ptrName_reserved p hp h6) h5
    · intro he; omega

/-- the types of the dynamic linking tables identify them -/
theorem Run.type_own (h : Run opts ops sched w w' file secs) (hg : GoodInputs ops) (hpt : PlainTypes ops) {t : Section} (ht : t ∈ secs) :
    (t.sh.sh_type = SHT_DYNSYM ↔ t.ptr = P.dynsym) ∧
    (t.sh.sh_type = SHT_STRTAB ∧ (t.sh.sh_flags &&& SHF_ALLOC) = SHF_ALLOC ↔ t.ptr = P.dynstr) ∧
    (t.sh.sh_type = SHT_HASH ↔ t.ptr = P.hash) ∧ (t.sh.sh_type = SHT_GNU_HASH ↔ t.ptr = P.gnuHash) := by
  have hk := h.known hg.flags ht
  rcases Nat.lt_or_ge t.ptr P.first with hp | hp
  · have ho := hk.own hp
    have e1 : t.sh.sh_type = (ownOrigin t.ptr).2.2.2.1 := congrArg (·.2.2.2.1) ho
    have e2 : t.sh.sh_flags = (ownOrigin t.ptr).2.2.2.2.1 := congrArg (·.2.2.2.2.1) ho
    rw [e1, e2]
    revert hp
    generalize t.ptr = p
    revert p
    decide
  · rcases hk with hk | ⟨_, _, _, n, sh, d, r, h1, _, h2, _⟩
    · obtain ⟨b, hb, e⟩ := List.mem_map.1 hk
      have := (baseIdents_ptr opts.hashStyle).2 b.1 (List.mem_map_of_mem hb)
      have e3 : t.ptr = b.1 := (congrArg (·.1) e).symm
      omega
    · obtain ⟨t1, t2, t3, t4⟩ := hpt n sh d r h1
      rw [h2]
      have hne : ∀ k, k < P.first → t.ptr ≠ k := fun k hk he => by omega
      refine ⟨⟨fun e => absurd e t2, fun e => absurd e (hne _ (by decide))⟩, ⟨fun e => absurd e.1 t1, fun e => absurd e (hne _ (by decide))⟩,
        ⟨fun e => absurd e t3, fun e => absurd e (hne _ (by decide))⟩, ⟨fun e => absurd e t4, fun e => absurd e (hne _ (by decide))⟩⟩

/-! ### The entries -/

theorem dynEntriesOf_congr {n : Name} {a b : SectionHeader} (h1 : a.sh_type = b.sh_type) (h2 : a.sh_flags = b.sh_flags)
    (h3 : a.sh_addr = b.sh_addr) (h4 : a.sh_size = b.sh_size) (h5 : a.sh_entsize = b.sh_entsize) : dynEntriesOf n a = dynEntriesOf n b := by
  unfold dynEntriesOf; rw [h1, h2, h3, h4, h5]

theorem Run.dyn_entries (h : Run opts ops sched w w' file secs) (hg : GoodInputs ops) (hn : NamesFit w) :
    w'.dynEntries = w.dynEntries ++ secs.flatMap (fun t => dynEntriesOf ((Dld.nameOf w t).getD []) t.sh) ++ [(.null, 0)] := by
  obtain ⟨st, hst⟩ := h.stages
  subst hst
  obtain ⟨_, _, _, _, _, _, _, _, f9⟩ := st.final_tables
  obtain ⟨p1, p2⟩ := st.placed_rest
  have h1 := (addDynEntries_ok st.hentries).1
  have e : st.sorted.genProgramHeaders = st.placed := rfl
  rw [e] at h1
  rw [f9, h1, p2]
  congr 2
  have hpost := (st.final_post).1
  have h2 : st.placed.sections.flatMap (fun s => dynEntriesOf (secNameD st.placed s) s.sh) =
      st.final.sections.flatMap (fun s => dynEntriesOf ((Dld.nameOf w s).getD []) s.sh) := by
    have : ∀ l : List Section, l.flatMap (fun s => dynEntriesOf ((Dld.nameOf w s).getD []) s.sh) =
        (l.map post).flatMap fun x => dynEntriesOf ((w.shstr.name x.2.2.2.2.sh_name).getD []) x.2.2.2.2 := by
      intro l; rw [List.flatMap_map]; rfl
    rw [this, hpost, ← this]
    unfold secNameD Dld.nameOf
    rw [p1]
  rw [h2, List.flatMap_def, List.flatMap_def]
  congr 1
  apply List.ext_getElem?
  intro i
  simp only [List.getElem?_map]
  cases ht : secs[i]? with
  | none =>
    have := h.secs_length
    rw [List.getElem?_eq_none_iff] at ht
    rw [List.getElem?_eq_none (by omega)]
  | some t =>
    obtain ⟨s, hs, hf, _⟩ := h.finalized ht
    rw [hs]
    simp only [Option.map_some, Option.some.injEq]
    have hnm : Dld.nameOf w t = Dld.nameOf w s := by unfold Dld.nameOf; rw [hf.name]
    rw [hnm]
    by_cases hk : t.kind = .copyRel
    · have htm := List.mem_of_getElem? ht
      have hp : t.ptr = P.copyRel := (h.known hg.flags htm).copyRel_kind.1 hk
      have hname := (h.name_own hg hn htm (p := P.copyRel) (by decide)).2 hp
      rw [← hnm, hname]
      have hty : t.sh.sh_type = SHT_NOBITS := ((h.known hg.flags htm).nobits (by rw [hp]; decide)).2 hp
      have hty' : s.sh.sh_type = SHT_NOBITS := by rw [← hf.type]; exact hty
      unfold dynEntriesOf
      rw [hty, hty']
      rfl
    · exact (dynEntriesOf_congr hf.type hf.flags hf.addr (hf.size hk) (by rw [hf.sh])).symm

/-- an entry as it is stored -/
def dynPair (d : DynTag × Nat) : Nat × Nat := (d.1.toNat, d.2)

/-- The entries made for a section, by tag. The hypotheses say that the types of the dynamic linking tables go with their names. -/
theorem dynEntriesOf_tag {n : Name} {sh : SectionHeader} (h1 : sh.sh_type = SHT_DYNSYM ↔ n = b!".dynsym")
    (h2 : sh.sh_type = SHT_STRTAB ∧ (sh.sh_flags &&& SHF_ALLOC) = SHF_ALLOC ↔ n = b!".dynstr")
    (h3 : sh.sh_type = SHT_HASH ↔ n = b!".hash") (h4 : sh.sh_type = SHT_GNU_HASH ↔ n = b!".gnu.hash") :
    ∀ x ∈ Spec.sectionTags, ((dynEntriesOf n sh).map dynPair).filter (fun e => e.1 == x.1) =
      if n = x.2.1 then [(x.1, x.2.2 sh.toSpec)] else [] := by
  unfold dynEntriesOf
  by_cases n1 : n = b!".init"
  · subst n1; simp [Spec.sectionTags, dynPair, DynTag.toNat, SectionHeader.toSpec]
  by_cases n2 : n = b!".fini"
  · subst n2; simp [Spec.sectionTags, dynPair, DynTag.toNat, SectionHeader.toSpec]
  by_cases n3 : n = b!".rela.dyn"
  · subst n3; simp [Spec.sectionTags, dynPair, DynTag.toNat, SectionHeader.toSpec]
  by_cases n4 : n = b!".rela.plt"
  · subst n4; simp [Spec.sectionTags, dynPair, DynTag.toNat, SectionHeader.toSpec]
  by_cases n5 : n = b!".got.plt"
  · subst n5; simp [Spec.sectionTags, dynPair, DynTag.toNat, SectionHeader.toSpec]
  simp only [if_neg n1, if_neg n2, if_neg n3, if_neg n4, if_neg n5]
  by_cases n6 : n = b!".dynsym"
  · have := h1.2 n6
    subst n6; simp [this, Spec.sectionTags, dynPair, DynTag.toNat, SectionHeader.toSpec]
  have t1 : ¬ sh.sh_type = SHT_DYNSYM := fun e => n6 (h1.1 e)
  by_cases n7 : n = b!".dynstr"
  · have := h2.2 n7
    rw [if_neg t1, if_pos this]
    subst n7; simp [Spec.sectionTags, dynPair, DynTag.toNat, SectionHeader.toSpec]
  have t2 : ¬ (sh.sh_type = SHT_STRTAB ∧ (sh.sh_flags &&& SHF_ALLOC) = SHF_ALLOC) := fun e => n7 (h2.1 e)
  rw [if_neg t1, if_neg t2]
  by_cases n8 : n = b!".hash"
  · have := h3.2 n8
    subst n8; simp [this, SHT_HASH, SHT_INIT_ARRAY, SHT_FINI_ARRAY, Spec.sectionTags, dynPair, DynTag.toNat, SectionHeader.toSpec]
  have t3 : ¬ sh.sh_type = SHT_HASH := fun e => n8 (h3.1 e)
  by_cases n9 : n = b!".gnu.hash"
  · have := h4.2 n9
    subst n9
    simp [this, SHT_HASH, SHT_GNU_HASH, SHT_INIT_ARRAY, SHT_FINI_ARRAY, Spec.sectionTags, dynPair, DynTag.toNat, SectionHeader.toSpec]
  have t4 : ¬ sh.sh_type = SHT_GNU_HASH := fun e => n9 (h4.1 e)
  rw [if_neg t3, if_neg t4]
  have hall : ∀ x ∈ Spec.sectionTags, n ≠ x.2.1 := by
    intro x hx
    simp only [Spec.sectionTags, List.mem_cons, List.not_mem_nil, or_false] at hx
    rcases hx with rfl | rfl | rfl | rfl | rfl | rfl | rfl | rfl | rfl | rfl | rfl | rfl | rfl | rfl | rfl <;> assumption
  intro x hx
  rw [if_neg (hall x hx)]
  have htag : ∀ x ∈ Spec.sectionTags, ([25, 26, 27, 28] : List Nat).contains x.1 = false := by simp [Spec.sectionTags]
  have := htag x hx
  simp only [List.contains_eq_mem, List.mem_cons, List.not_mem_nil, or_false, decide_eq_false_iff_not, not_or] at this
  obtain ⟨a, b, c, d⟩ := this
  split
  · simp [dynPair, DynTag.toNat, Ne.symm a, Ne.symm c]
  · split
    · simp [dynPair, DynTag.toNat, Ne.symm b, Ne.symm d]
    · simp

/-- the tags a section can get -/
theorem dynEntriesOf_tags (n : Name) (sh : SectionHeader) : ∀ e ∈ dynEntriesOf n sh, e.1.toNat ∈ Spec.sectionTags.map (·.1) ++ [25, 26, 27, 28, 0x6ffffff9] := by
  unfold dynEntriesOf
  repeat' split
  all_goals simp [Spec.sectionTags, DynTag.toNat]

/-- the init and fini array entries of a section -/
theorem dynEntriesOf_array {n : Name} {sh : SectionHeader}
    (h2 : n = b!".rela.dyn" ∨ n = b!".rela.plt" ∨ n = b!".got.plt" → sh.sh_type ≠ SHT_INIT_ARRAY ∧ sh.sh_type ≠ SHT_FINI_ARRAY) :
    (((dynEntriesOf n sh).map dynPair).filter (fun e => e.1 == 25) =
      if sh.sh_type = SHT_INIT_ARRAY ∧ n ≠ b!".init" ∧ n ≠ b!".fini" then [(25, sh.sh_addr)] else []) ∧
    (((dynEntriesOf n sh).map dynPair).filter (fun e => e.1 == 27) =
      if sh.sh_type = SHT_INIT_ARRAY ∧ n ≠ b!".init" ∧ n ≠ b!".fini" then [(27, sh.sh_size)] else []) ∧
    (((dynEntriesOf n sh).map dynPair).filter (fun e => e.1 == 26) =
      if sh.sh_type = SHT_FINI_ARRAY ∧ n ≠ b!".init" ∧ n ≠ b!".fini" then [(26, sh.sh_addr)] else []) ∧
    (((dynEntriesOf n sh).map dynPair).filter (fun e => e.1 == 28) =
      if sh.sh_type = SHT_FINI_ARRAY ∧ n ≠ b!".init" ∧ n ≠ b!".fini" then [(28, sh.sh_size)] else []) := by
  unfold dynEntriesOf
  by_cases n1 : n = b!".init"
  · subst n1; simp [dynPair, DynTag.toNat]
  by_cases n2 : n = b!".fini"
  · subst n2; simp [dynPair, DynTag.toNat]
  by_cases n3 : n = b!".rela.dyn"
  · obtain ⟨a, b⟩ := h2 (.inl n3)
    subst n3; simp [dynPair, DynTag.toNat, a, b]
  by_cases n4 : n = b!".rela.plt"
  · obtain ⟨a, b⟩ := h2 (.inr (.inl n4))
    subst n4; simp [dynPair, DynTag.toNat, a, b]
  by_cases n5 : n = b!".got.plt"
  · obtain ⟨a, b⟩ := h2 (.inr (.inr n5))
    subst n5; simp [dynPair, DynTag.toNat, a, b]
  simp only [if_neg n1, if_neg n2, if_neg n3, if_neg n4, if_neg n5, ne_eq, n1, n2, not_false_eq_true, and_true]
  by_cases t1 : sh.sh_type = SHT_DYNSYM
  · simp [t1, dynPair, DynTag.toNat, SHT_DYNSYM, SHT_INIT_ARRAY, SHT_FINI_ARRAY]
  rw [if_neg t1]
  by_cases t2 : sh.sh_type = SHT_STRTAB ∧ (sh.sh_flags &&& SHF_ALLOC) = SHF_ALLOC
  · rw [if_pos t2]
    simp [t2.1, dynPair, DynTag.toNat, SHT_STRTAB, SHT_INIT_ARRAY, SHT_FINI_ARRAY]
  rw [if_neg t2]
  by_cases t3 : sh.sh_type = SHT_INIT_ARRAY
  · simp [t3, dynPair, DynTag.toNat, SHT_INIT_ARRAY, SHT_FINI_ARRAY]
  rw [if_neg t3]
  by_cases t4 : sh.sh_type = SHT_FINI_ARRAY
  · simp [t4, dynPair, DynTag.toNat, SHT_INIT_ARRAY, SHT_FINI_ARRAY]
  rw [if_neg t4]
  simp only [t3, t4, if_false]
  repeat' split
  all_goals simp [dynPair, DynTag.toNat]

end Dld
