import Verif.Lemmas.Symtab
/-! # The contents of every section are as long as its header says -/
namespace Dld
open Writer

variable {opts : Options} {ops : List Op} {sched : Sched} {w w' : Writer} {file : Bytes} {secs : List Section}

theorem length_contents (s : Section) : (contents s).length = (lens s).sum := by
  simp only [contents, lens, List.length_flatMap]

theorem Holds.length_chunk {t : StringTable} {ns : List Name} (h : StringTable.Holds t ns) : t.chunk.length = t.totalLen := by
  unfold StringTable.chunk StringTable.chunkIn
  rw [h.names, StringTable.sortedNamesIn_perm (.refl _), StringTable.flatMap_lay, StringTable.length_flatMap_serName, h.total]

theorem length_flatMap_const {α : Type} {f : α → Bytes} {k : Nat} (h : ∀ a, (f a).length = k) (l : List α) :
    (l.flatMap f).length = l.length * k := by
  induction l with
  | nil => simp
  | cons a l ih => simp only [List.flatMap_cons, List.length_append, h, ih, List.length_cons, Nat.add_mul]; omega

theorem length_serRela (r : Rela) : (serRela r).length = sizeofRela := by simp [serRela, leInt, sizeofRela]
theorem length_serDyn (d : DynTag × Nat) : (serDyn d).length = 16 := by simp [serDyn]
theorem length_serProgramHeader (p : ProgramHeader) : (serProgramHeader p).length = sizeofProgramHeader := by
  simp [serProgramHeader, sizeofProgramHeader]
theorem length_serSectionHeader (p : SectionHeader) : (serSectionHeader p).length = sizeofSectionHeader := by
  simp [serSectionHeader, sizeofSectionHeader]

theorem Plt.length_chunk (p : Plt) : p.chunk.length = p.size := by
  unfold Plt.chunk Plt.size
  have : ∀ n : Nat, (List.replicate n pltEntry).flatten.length = n * 16 := by
    intro n
    induction n with
    | zero => rfl
    | succ n ih => simp only [List.replicate_succ, List.flatten_cons, List.length_append, ih]; simp [pltEntry]; omega
  rw [List.length_append, this]
  simp [pltHeader, PLT_ENTRY_SIZE]; omega

/-! ### The dynamic section -/

theorem length_dynEntriesOf (n : Name) (sh : SectionHeader) : (dynEntriesOf n sh).length = dynEntries n sh := by
  unfold dynEntriesOf dynEntries
  by_cases h1 : n = b!".init"; · simp [h1]
  by_cases h2 : n = b!".fini"; · simp [h2]
  by_cases h3 : n = b!".rela.dyn"; · simp [h3]
  by_cases h4 : n = b!".rela.plt"; · simp [h4]
  by_cases h5 : n = b!".got.plt"; · simp [h5]
  simp only [h1, h2, h3, h4, h5, if_false, or_self]
  by_cases t1 : sh.sh_type = SHT_DYNSYM; · simp [t1]
  by_cases t2 : sh.sh_type = SHT_STRTAB
  · by_cases f : (sh.sh_flags &&& SHF_ALLOC) = SHF_ALLOC
    · simp [t2, f, SHT_STRTAB, SHT_DYNSYM, SHT_INIT_ARRAY, SHT_FINI_ARRAY]
    · simp [t2, f, SHT_STRTAB, SHT_DYNSYM, SHT_INIT_ARRAY, SHT_FINI_ARRAY, SHT_HASH, SHT_GNU_HASH]
  by_cases t3 : sh.sh_type = SHT_INIT_ARRAY; · simp [t3, SHT_STRTAB, SHT_DYNSYM, SHT_INIT_ARRAY]
  by_cases t4 : sh.sh_type = SHT_FINI_ARRAY; · simp [t4, SHT_STRTAB, SHT_DYNSYM, SHT_INIT_ARRAY, SHT_FINI_ARRAY]
  by_cases t5 : sh.sh_type = SHT_HASH; · simp [t5, SHT_STRTAB, SHT_DYNSYM, SHT_INIT_ARRAY, SHT_FINI_ARRAY, SHT_HASH]
  by_cases t6 : sh.sh_type = SHT_GNU_HASH
  · simp [t6, SHT_STRTAB, SHT_DYNSYM, SHT_INIT_ARRAY, SHT_FINI_ARRAY, SHT_HASH, SHT_GNU_HASH]
  simp [t1, t2, t3, t4, t5, t6]

/-- the name of a section, if it has one -/
def secNameD (w : Writer) (s : Section) : Name := (w.shstr.name s.sh.sh_name).getD []

theorem foldM'_acc {α β : Type} {f : β → α → M β} {g : β → α → β} (h : ∀ b a b', f b a = .ok b' → b' = g b a) {l : List α} {b b' : β}
    (hl : foldM' f b l = .ok b') : b' = l.foldl g b := by
  induction l generalizing b with
  | nil => cases hl; rfl
  | cons a l ih =>
    rw [foldM'_cons, bind_ok] at hl
    obtain ⟨b1, h1, h2⟩ := hl
    rw [List.foldl_cons, ← h _ _ _ h1]; exact ih h2

theorem foldl_add_sum {α : Type} (g : α → Nat) (l : List α) (b : Nat) : l.foldl (fun b a => b + g a) b = b + (l.map g).sum := by
  induction l generalizing b with
  | nil => simp
  | cons a l ih => simp [ih]; omega

theorem foldl_append_flatMap {α β : Type} (g : α → List β) (l : List α) (b : List β) :
    l.foldl (fun b a => b ++ g a) b = b ++ l.flatMap g := by
  induction l generalizing b with
  | nil => simp
  | cons a l ih => simp [ih]

theorem sizeDynamic_ok {w w' : Writer} (h : w.sizeDynamic = .ok w') :
    w' = w.modSec P.dynamic (setSize ((w.dynEntries.length + ((w.sections.map fun s => dynEntries (secNameD w s) s.sh).sum + 1)) * 2 * 8)) := by
  simp only [sizeDynamic, bind_ok] at h
  obtain ⟨n, h1, h2⟩ := h
  cases h2
  have := foldM'_acc (g := fun n (s : Section) => n + dynEntries (secNameD w s) s.sh) (fun b a b' h => by
    simp only [bind_ok, secName, unwrap_ok] at h
    obtain ⟨name, hn, h⟩ := h
    cases h
    simp [secNameD, hn]) h1
  rw [foldl_add_sum, Nat.zero_add] at this
  rw [this]

theorem addDynEntries_ok {w w' : Writer} (h : w.addDynEntries = .ok w') :
    w'.dynEntries = w.dynEntries ++ w.sections.flatMap (fun s => dynEntriesOf (secNameD w s) s.sh) ++ [(.null, 0)] ∧
    ∀ s ∈ w.sections, w.shstr.name s.sh.sh_name = some (secNameD w s) := by
  simp only [addDynEntries, bind_ok] at h
  obtain ⟨n, h1, h2⟩ := h
  cases h2
  have := foldM'_acc (g := fun n (s : Section) => n ++ dynEntriesOf (secNameD w s) s.sh) (fun b a b' h => by
    simp only [bind_ok, secName, unwrap_ok] at h
    obtain ⟨name, hn, h⟩ := h
    cases h
    simp [secNameD, hn]) h1
  rw [foldl_append_flatMap] at this
  refine ⟨by rw [this], ?_⟩
  clear this
  revert h1
  generalize w.dynEntries = es
  generalize w.sections = l
  intro h1
  induction l generalizing es with
  | nil => intro s hs; cases hs
  | cons a l ih =>
    rw [foldM'_cons, bind_ok] at h1
    obtain ⟨b1, h2, h3⟩ := h1
    intro s hs
    rcases List.mem_cons.1 hs with rfl | hs
    · simp only [bind_ok, secName, unwrap_ok] at h2
      obtain ⟨name, hn, _⟩ := h2
      simp [secNameD, hn]
    · exact ih _ h3 s hs

namespace Writer

/-- the fields of the writer that the layout reads besides the sections -/
theorem Early.placed_rest (st : Early sched w) : st.placed.shstr = w.shstr ∧ st.placed.dynEntries = w.dynEntries := by
  obtain ⟨h1, _, _, _, _, _, _, _, h2⟩ := st.sorted_rest
  exact ⟨h1, h2⟩

theorem Early.dynrel_rest (st : Early sched w) : st.dynrel.shstr = w.shstr ∧ st.dynrel.dynEntries = w.dynEntries := by
  have h1 := (scan_sections st.hscan).2
  have h2 := fillHashes_rest st.hfill
  have h3 := genDynRels_rest st.hdynrel
  rw [h3]
  simp only [expandRest]
  rw [h2]
  simp only [expandDynsym, resizeGotPlt, resizeGot, modSec]
  rw [h1]
  exact ⟨rfl, rfl⟩

/-- names, types and flags of the sections do not change from the sizing of `.dynamic` to the
filling -/
theorem Early.placed_tags (hv : sched.Valid) (st : Early sched w) (hu : Untouched w) :
    (st.placed.sections.map fun s => (s.sh.sh_name, s.sh.sh_type, s.sh.sh_flags)).Perm
      (st.dynrel.sections.map fun s => (s.sh.sh_name, s.sh.sh_type, s.sh.sh_flags)) := by
  rw [st.placed_core hu (fun s => (s.sh.sh_name, s.sh.sh_type, s.sh.sh_flags)) (fun s t h => by rw [h.2.2.2.2.1])]
  obtain ⟨h1, h2⟩ := sortSecs_perm hv st.hsort (F := fun s => (s.sh.sh_name, s.sh.sh_type, s.sh.sh_flags)) (fun _ _ => rfl)
  have h3 := sizeDynamic_ok st.hdynamic
  have h4 : st.dynamic.sections.map (fun s => (s.sh.sh_name, s.sh.sh_type, s.sh.sh_flags)) =
      st.dynrel.sections.map (fun s => (s.sh.sh_name, s.sh.sh_type, s.sh.sh_flags)) := by
    rw [h3]; exact modSec_map fun _ _ => rfl
  rw [← h4, ← List.take_append_drop 1 st.sorted.sections, ← List.take_append_drop 1 st.dynamic.sections,
    List.map_append, List.map_append, h1]
  exact h2.append_left _

/-- the size recorded for `.dynamic` is the number of its entries, 16 bytes each -/
theorem Stages.dynamic_size (hv : sched.Valid) (st : Stages sched w) (hu : Untouched w) :
    (st.relocated.dynEntries.length) * 16 =
      (st.dynrel.dynEntries.length + ((st.dynrel.sections.map fun s => Dld.dynEntries (secNameD st.dynrel s) s.sh).sum + 1)) * 2 * 8 := by
  obtain ⟨_, _, _, _, _, _, f7, _⟩ := st.final_tables
  obtain ⟨p1, p2⟩ := st.placed_rest
  obtain ⟨q1, q2⟩ := st.dynrel_rest
  have h1 := (addDynEntries_ok st.hentries).1
  have e : st.sorted.genProgramHeaders = st.placed := rfl
  rw [e] at h1
  rw [f7, h1]
  simp only [List.length_append, List.length_flatMap, List.length_cons, List.length_nil]
  have key : ∀ v : Writer, v.shstr = w.shstr → (v.sections.map fun s => Dld.dynEntries (secNameD v s) s.sh) =
      (v.sections.map fun s => (s.sh.sh_name, s.sh.sh_type, s.sh.sh_flags)).map fun t =>
        Dld.dynEntries ((w.shstr.name t.1).getD []) { sh_type := t.2.1, sh_flags := t.2.2 } := by
    intro v hv
    rw [List.map_map]
    apply List.map_congr_left
    intro s _
    simp only [Function.comp, secNameD, hv, Dld.dynEntries]
  have hp := (st.placed_tags hv hu).map fun t => Dld.dynEntries ((w.shstr.name t.1).getD []) { sh_type := t.2.1, sh_flags := t.2.2 }
  have hs : (st.placed.sections.map fun s => (dynEntriesOf (secNameD st.placed s) s.sh).length).sum =
      (st.dynrel.sections.map fun s => Dld.dynEntries (secNameD st.dynrel s) s.sh).sum := by
    simp only [length_dynEntriesOf]
    rw [key _ p1, key _ q1]
    exact hp.sum_nat
  rw [hs, p2, q2]
  omega

end Writer

/-! ### Sizes -/

theorem Writer.Early.growth_pushed (st : Early sched w) {p : Nat} (h : P.first ≤ p) : st.growth p = {} := by
  have hne : ∀ k, k < 16 → p ≠ k := fun k hk => by simp only [P.first] at h; omega
  simp [Early.growth, hne, P.shstr, P.symstr, P.dynstr, P.got, P.gotPlt, P.plt, P.sym, P.dynsym, P.dynamic, P.relaDyn, P.relaPlt,
    P.copyRel, P.hash, P.gnuHash]

theorem Writer.tableData_pushed {w w' : Writer} {p : Nat} (h : P.first ≤ p) : tableData w w' p = [] := by
  have hne : ∀ k, k < 16 → p ≠ k := fun k hk => by simp only [P.first] at h; omega
  simp [tableData, hne, P.shstr, P.symstr, P.dynstr, P.dynamic, P.relaDyn, P.relaPlt]

theorem new_size {w0 : Writer} (h0 : Writer.new opts = .ok w0) {b : Section} (hb : b ∈ w0.sections) :
    (b.sh.sh_size, b.chunks) =
      if b.ptr = P.interp then (opts.dynamicLinker.full.length + 1, [{ data := opts.dynamicLinker.full ++ [0] }]) else (0, []) := by
  obtain ⟨h1, _, h2⟩ := new_idents opts w0 h0
  obtain ⟨i, hi, rfl⟩ := List.getElem_of_mem hb
  have e1 := congrArg (·[i]?) h1
  have e2 := congrArg (·[i]?) h2
  simp only [List.getElem?_map, List.getElem?_eq_getElem hi, Option.map_some] at e1 e2
  rw [← e1] at e2
  simpa [Section.ident] using e2

theorem CleanInputs.no_push (hc : CleanInputs ops) {hs : HashStyle} {n : Name} (hn : n ∈ tabNames hs) (hne : n ≠ []) :
    pushesOf n ops = [] := by
  cases hp : pushesOf n ops with
  | nil => rfl
  | cons p ps =>
    obtain ⟨r, hr⟩ := mem_pushesOf (n := n) (ops := ops) (p := p) (by rw [hp]; simp)
    exfalso
    refine hc.names n p.1 p.2 r hr ?_
    revert hne hn
    have : ∀ n ∈ tabNames hs, n ≠ [] → n ∈ reservedNames := by cases hs <;> decide
    exact fun a b => this n a b

theorem mem_slots_null (hs : HashStyle) : ∀ e ∈ slots hs, e.2 = [] → e.1 = P.null := by cases hs <;> decide

/-- the writer's own sections before `compute_sections`, for clean inputs -/
theorem CleanInputs.own (hc : CleanInputs ops) {w0 : Writer} {pn : List Name} (hI : WInv opts w0 ops w pn) (h0 : Writer.new opts = .ok w0)
    {s : Section} (hs : s ∈ w.sections) (hp : s.ptr < P.first) :
    (s.sh.sh_size = if s.ptr = P.interp then opts.dynamicLinker.full.length + 1 else 0) ∧
    (s.ptr = P.null ∧ contents s = [] ∨
      s.ptr ≠ P.null ∧ s.chunks.map (·.data) = if s.ptr = P.interp then [opts.dynamicLinker.full ++ [0]] else []) := by
  obtain ⟨b, n, hb, hid, hsl, hM⟩ := hI.own h0 hs hp
  have hz := new_size h0 hb
  have hsz : s.sh.sh_size = b.sh.sh_size + ((pushesOf n ops).map (·.1.sh_size)).sum := by rw [hM.sh]
  have hd := hM.data
  rw [hM.ptr]
  by_cases hn : n = []
  · have hnull : b.ptr = P.null := by rw [← hM.ptr]; exact mem_slots_null _ _ hsl hn
    rw [hnull, if_neg (by decide)] at hz
    simp only [Prod.mk.injEq] at hz
    subst hn
    rw [hnull, if_neg (by decide)]
    refine ⟨?_, .inl ⟨rfl, ?_⟩⟩
    · rw [hsz, hz.1, Nat.zero_add]
      have : ∀ p ∈ pushesOf [] ops, p.1.sh_size = 0 := fun p hp => by
        obtain ⟨r, hr⟩ := mem_pushesOf hp
        exact (hc.null _ _ _ hr).1
      clear hM hsz hd
      revert this
      induction pushesOf [] ops with
      | nil => intro _; rfl
      | cons p ps ih => intro this; simp [this p (by simp), ih fun p hp => this p (by simp [hp])]
    · rw [hz.2] at hd
      have : ∀ d ∈ s.chunks.map (·.data), d = [] := by
        intro d hdm
        rw [hd] at hdm
        simp only [List.map_nil, List.nil_append, List.mem_filterMap] at hdm
        obtain ⟨p, hp, he⟩ := hdm
        obtain ⟨r, hr⟩ := mem_pushesOf hp
        have := (hc.null _ _ _ hr).2
        rw [he] at this; exact this
      unfold contents
      rw [List.flatMap_eq_nil_iff]
      intro c hc
      exact this _ (List.mem_map_of_mem hc)
  · have hps := hc.no_push (slots_mem _ _ hsl) hn
    rw [hps] at hsz hd
    have hne : b.ptr ≠ P.null := by
      intro e
      have := slots_name _ _ hsl (by rw [hM.ptr, e]; exact Nat.zero_le _)
      simp only at this
      rw [hM.ptr, e] at this
      exact hn this
    simp only [List.map_nil, List.sum_nil, Nat.add_zero, List.filterMap_nil, List.append_nil] at hsz hd
    rw [hsz, hd]
    by_cases hi : b.ptr = P.interp
    · rw [if_pos hi] at hz
      simp only [Prod.mk.injEq] at hz
      rw [if_pos hi, if_pos hi, hz.1, hz.2]
      exact ⟨rfl, .inr ⟨hne, rfl⟩⟩
    · rw [if_neg hi] at hz
      simp only [Prod.mk.injEq] at hz
      rw [if_neg hi, if_neg hi, hz.1, hz.2]
      exact ⟨rfl, .inr ⟨hne, rfl⟩⟩

/-- a section made from inputs, for clean inputs: its name, type, contents and size -/
theorem CleanInputs.pushed (hc : CleanInputs ops) {w0 : Writer} {pn : List Name} (hI : WInv opts w0 ops w pn) (h0 : Writer.new opts = .ok w0)
    {s : Section} (hs : s ∈ w.sections) (hp : P.first ≤ s.ptr) :
    ∃ n p ps, n ∈ pn ∧ pushesOf n ops = p :: ps ∧ s.sh.sh_type = p.1.sh_type ∧
      s.sh.sh_size = ((p :: ps).map (·.1.sh_size)).sum ∧
      contents s = (p :: ps).flatMap (fun p => p.2.getD []) ∧
      (s.sh.sh_type = SHT_NOBITS → contents s = []) ∧ (s.sh.sh_type ≠ SHT_NOBITS → (contents s).length = s.sh.sh_size) := by
  obtain ⟨i, hi, rfl⟩ := List.getElem_of_mem hs
  by_cases hlt : i < (tabNames opts.hashStyle).length
  · obtain ⟨b, n, m, hb, hn, hm, hname, hid, hM⟩ := hI.base0 h0 hlt (List.getElem?_eq_getElem hi)
    have := (baseIdents_ptr opts.hashStyle).2 b.ptr (List.mem_map.2 ⟨_, List.mem_of_getElem? hid, rfl⟩)
    rw [hM.ptr] at hp; omega
  · obtain ⟨k, rfl⟩ : ∃ k, i = (tabNames opts.hashStyle).length + k := ⟨i - (tabNames opts.hashStyle).length, by omega⟩
    obtain ⟨n, p, ps, hn, hps, hM⟩ := hI.pushed k _ (List.getElem?_eq_getElem hi)
    have hmem := List.mem_of_getElem? hn
    have hne : n ≠ [] := by
      rintro rfl
      have := (List.nodup_append.1 hI.names.nodup).2.2 [] (by cases opts.hashStyle <;> decide) [] hmem
      exact this rfl
    generalize w.sections[(tabNames opts.hashStyle).length + k] = s at *
    have hop : ∀ q ∈ p :: ps, ∃ r, Op.push n q.1 q.2 r ∈ ops := fun q hq => mem_pushesOf (by rw [hps]; exact hq)
    have hty : s.sh.sh_type = p.1.sh_type := by rw [hM.sh]; rfl
    have hsz : s.sh.sh_size = ((p :: ps).map (·.1.sh_size)).sum := by rw [hM.sh]; rfl
    have hct : contents s = (p :: ps).flatMap (fun p => p.2.getD []) := by
      have : contents s = (s.chunks.map (·.data)).flatten := by simp [contents, List.flatMap_def]
      rw [this, hM.data]
      simp only [firstSection, List.map_cons, List.map_nil, List.singleton_append, List.flatten_cons, List.flatMap_cons]
      congr 1
      induction ps with
      | nil => rfl
      | cons q ps ih =>
        have ih' : ∀ l : List (SectionHeader × Option Bytes), (l.filterMap (·.2)).flatten = l.flatMap fun p => p.2.getD [] := by
          intro l
          induction l with
          | nil => rfl
          | cons a l ih => cases ha : a.2 <;> simp [ha, ih]
        exact ih' _
    refine ⟨n, p, ps, hmem, hps, hty, hsz, hct, ?_, ?_⟩
    · intro ht
      rw [hct, List.flatMap_eq_nil_iff]
      intro q hq
      obtain ⟨r, hr⟩ := hop q hq
      obtain ⟨r', hr'⟩ := hop p (by simp)
      have := (hc.nobits n _ _ r hne hr).1 ((hc.same n _ _ _ _ _ _ hr' hr).1 (hty ▸ ht))
      rw [this]; rfl
    · intro ht
      rw [hct, hsz, List.length_flatMap]
      congr 1
      apply List.map_congr_left
      intro q hq
      obtain ⟨r, hr⟩ := hop q hq
      obtain ⟨r', hr'⟩ := hop p (by simp)
      have hq : q.2 ≠ none := fun e => ht (hty ▸ (hc.same n _ _ _ _ _ _ hr' hr).2 ((hc.nobits n _ _ r hne hr).2 e))
      obtain ⟨d, hd⟩ := Option.ne_none_iff_exists'.1 hq
      rw [hd] at hr
      rw [hd]
      exact hc.size n _ _ _ hr

theorem Known.nobits {hs : HashStyle} {s : Section} (hk : Known hs ops s) (hp : s.ptr < P.first) :
    s.sh.sh_type = SHT_NOBITS ↔ s.ptr = P.copyRel := by
  have h := origins_cases (hk.origin_of_ptr hp)
  simp only [Section.origin, Prod.mk.injEq] at h
  simp only [SHT_DYNAMIC, SHT_PROGBITS, SHT_STRTAB, SHT_SYMTAB, SHT_DYNSYM, SHT_RELA, SHT_NOBITS, SHT_HASH, SHT_GNU_HASH,
      P.null, P.shstr, P.symstr, P.dynstr, P.interp, P.got, P.gotPlt, P.plt, P.sym, P.dynsym, P.dynamic, P.relaDyn, P.relaPlt,
      P.copyRel, P.hash, P.gnuHash] at h ⊢
  omega

/-- identity, link, kind, type, flags and entry size of an own section -/
def ownOrigin (p : Nat) : Nat × Option Nat × Kind × Nat × Nat × Nat :=
  ([(P.null, none, .plain, 0, 0, 0), (P.shstr, none, .shstr, SHT_STRTAB, 0, 0), (P.symstr, none, .symstr, SHT_STRTAB, 0, 0),
    (P.dynstr, none, .dynstr, SHT_STRTAB, 2, 0), (P.interp, none, .plain, SHT_PROGBITS, 2, 0), (P.got, none, .plain, SHT_PROGBITS, 3, 0),
    (P.gotPlt, none, .plain, SHT_PROGBITS, 3, 0), (P.plt, none, .plt, SHT_PROGBITS, 6, 0), (P.sym, some P.symstr, .symtab, SHT_SYMTAB, 0, 24),
    (P.dynsym, some P.dynstr, .dynsym, SHT_DYNSYM, 2, 24), (P.dynamic, some P.dynstr, .plain, SHT_DYNAMIC, 3, 16),
    (P.relaDyn, some P.dynsym, .plain, SHT_RELA, 2, 24), (P.relaPlt, some P.dynsym, .plain, SHT_RELA, 2, 24),
    (P.copyRel, none, .copyRel, SHT_NOBITS, 3, 0), (P.hash, some P.dynsym, .hash, SHT_HASH, 2, 4),
    (P.gnuHash, some P.dynsym, .gnuHash, SHT_GNU_HASH, 2, 4)] : List (Nat × Option Nat × Kind × Nat × Nat × Nat))[p]?.getD (0, none, .plain, 0, 0, 0)

theorem Known.own {hs : HashStyle} {s : Section} (hk : Known hs ops s) (h : s.ptr < P.first) : s.origin = ownOrigin s.ptr := by
  have h1 := origins_cases (hk.origin_of_ptr h)
  have hp : s.ptr = s.origin.1 := rfl
  rw [hp]
  rcases h1 with h | h | h | h | h | h | h | h | h | h | h | h | h | h | h | h <;> rw [h] <;> rfl

theorem Known.symtab_ptr {hs : HashStyle} {s : Section} (hk : Known hs ops s) (h : s.kind = .symtab) : s.ptr = P.sym := by
  rcases hk with h1 | ⟨_, h1, _⟩
  · have h1 := origins_cases h1
    simp only [Section.origin, Prod.mk.injEq, h] at h1
    simp at h1; exact h1.1
  · rw [h] at h1; cases h1

theorem Known.dynsym_ptr {hs : HashStyle} {s : Section} (hk : Known hs ops s) (h : s.kind = .dynsym) : s.ptr = P.dynsym := by
  rcases hk with h1 | ⟨_, h1, _⟩
  · have h1 := origins_cases h1
    simp only [Section.origin, Prod.mk.injEq, h] at h1
    simp at h1; exact h1.1
  · rw [h] at h1; cases h1

/-- every section's contents have the length its header claims -/
theorem Run.content_length (h : Run opts ops sched w w' file secs) (hc : CleanInputs ops) {s : Section} (hs : s ∈ w'.sections) :
    (lens s).sum = s.sizeOnDisk := by
  obtain ⟨st, rfl⟩ := h.stages
  have hu := h.hist.untouched
  have hsf := h.hist.secFacts
  obtain ⟨w0, pn, h0, hI⟩ := h.hist.winv
  obtain ⟨s0, hs0, hf⟩ := (st.sources h.valid hsf hu).1 s hs
  have hk0 := hsf.known s0 hs0
  have hty : s.sh.sh_type = s0.sh.sh_type := by rw [hf.sh]
  have hl0 : (Writer.lens s0).sum = (contents s0).length := (length_contents s0).symm
  rw [hf.lens]
  simp only [List.sum_append]
  unfold Section.sizeOnDisk
  rw [hty, show s.sh.sh_size = (st.growth s0.ptr).size.getD s0.sh.sh_size by rw [hf.sh]]
  by_cases hp : s0.ptr < P.first
  · obtain ⟨hz, hd⟩ := hc.own hI h0 hs0 hp
    have hnb := hk0.nobits hp
    have hlen : (Writer.lens s0).sum = if s0.ptr = P.interp then opts.dynamicLinker.full.length + 1 else 0 := by
      rcases hd with ⟨e, hd⟩ | ⟨_, hd⟩
      · rw [hl0, hd, e]; rfl
      · have : Writer.lens s0 = (s0.chunks.map (·.data)).map List.length := by simp [Writer.lens]
        rw [this, hd]; split <;> simp
    obtain ⟨f, _, hsym, hdyn⟩ := h.hist.strs
    have hshs := hI.names
    have esc := (scan_sections st.hscan).2
    have e1 : st.scanned.shstr = w.shstr := by rw [esc]
    have e2 : st.scanned.symstr = w.symstr := by rw [esc]
    have e3 : st.scanned.dynstr = w.dynstr := by rw [esc]
    obtain ⟨g1, g2, g3, _⟩ := st.sorted_rest
    obtain ⟨_, _, _, r4, r5, r6, _, _, _⟩ := st.final_post
    obtain ⟨f1, f2, f3, f4, f5, f6, f7, f8, f9⟩ := st.final_tables
    obtain ⟨⟨_, _, _, _, _, _, t1, t2⟩, _, t3⟩ := computeTables_ok st.htables
    obtain ⟨_, _, _, _, _, _, _, _, _, t4⟩ := finishHeader_ok st.hfinal
    have k1 : st.relocated.shstr = w.shstr := by
      have : st.final.shstr = st.relocated.shstr := by rw [t4, t3]
      rw [← this, r4, g1]
    have k2 : st.relocated.symstr = w.symstr := by
      have : st.final.symstr = st.relocated.symstr := by rw [t4, t3]
      rw [← this, r5, g2]
    have k3 : st.relocated.dynstr = w.dynstr := by
      have : st.final.dynstr = st.relocated.dynstr := by rw [t4, t3]
      rw [← this, r6, g3]
    have hcases := origins_cases (hk0.origin_of_ptr hp)
    have hptr : s0.ptr = P.null ∨ s0.ptr = P.shstr ∨ s0.ptr = P.symstr ∨ s0.ptr = P.dynstr ∨ s0.ptr = P.interp ∨ s0.ptr = P.got ∨
        s0.ptr = P.gotPlt ∨ s0.ptr = P.plt ∨ s0.ptr = P.sym ∨ s0.ptr = P.dynsym ∨ s0.ptr = P.dynamic ∨ s0.ptr = P.relaDyn ∨
        s0.ptr = P.relaPlt ∨ s0.ptr = P.copyRel ∨ s0.ptr = P.hash ∨ s0.ptr = P.gnuHash := by
      simp only [P.null, P.shstr, P.symstr, P.dynstr, P.interp, P.got, P.gotPlt, P.plt, P.sym, P.dynsym, P.dynamic, P.relaDyn, P.relaPlt,
        P.copyRel, P.hash, P.gnuHash, P.first] at hp ⊢
      omega
    rw [hlen, hz]
    by_cases hcr : s0.ptr = P.copyRel
    · have := hnb.2 hcr
      rw [hcr]; simp [this, Early.growth, tableData, P.shstr, P.symstr, P.dynstr, P.interp, P.got, P.gotPlt, P.plt, P.sym, P.dynsym, P.copyRel, P.hash, P.dynamic, P.relaDyn, P.relaPlt]
    · have hnn : s0.sh.sh_type ≠ SHT_NOBITS := fun e => hcr (hnb.1 e)
      rw [if_pos hnn]
      rcases hptr with e | e | e | e | e | e | e | e | e | e | e | e | e | e | e | e
      · rw [e]; rfl
      · rw [e]; simp [Early.growth, tableData, P.shstr, P.interp, e1, k1, Holds.length_chunk hshs]
      · rw [e]; simp [Early.growth, tableData, P.shstr, P.symstr, P.interp, e2, k2, Holds.length_chunk hsym]
      · rw [e]; simp [Early.growth, tableData, P.shstr, P.symstr, P.dynstr, P.interp, e3, k3, Holds.length_chunk hdyn]
      · rw [e]; rfl
      · rw [e]; simp [Early.growth, tableData, P.shstr, P.symstr, P.dynstr, P.interp, P.got, P.dynamic, P.relaDyn, P.relaPlt]
      · rw [e]; simp [Early.growth, tableData, P.shstr, P.symstr, P.dynstr, P.interp, P.got, P.gotPlt, P.dynamic, P.relaDyn, P.relaPlt]
      · rw [e]; simp [Early.growth, tableData, P.shstr, P.symstr, P.dynstr, P.interp, P.got, P.gotPlt, P.plt, P.dynamic, P.relaDyn, P.relaPlt, Plt.length_chunk]
      · rw [e]; simp [Early.growth, tableData, P.shstr, P.symstr, P.dynstr, P.interp, P.got, P.gotPlt, P.plt, P.sym, P.dynamic, P.relaDyn, P.relaPlt, SymbolTable.length_chunk h.valid.symIter]
      · rw [e]; simp [Early.growth, tableData, P.shstr, P.symstr, P.dynstr, P.interp, P.got, P.gotPlt, P.plt, P.sym, P.dynsym, P.dynamic, P.relaDyn, P.relaPlt, SymbolTable.length_chunk h.valid.dynIter]
      · have hsz := st.dynamic_size h.valid hu
        have hdynsec : (st.growth P.dynamic).size = some (st.relocated.dynEntries.length * 16) := by
          have e5 : (st.growth P.dynamic).size = (st.dynamic.sections.find? fun s => s.ptr == P.dynamic).map (·.sh.sh_size) := rfl
          rw [e5, hsz, sizeDynamic_ok st.hdynamic]
          have hex : ∃ t ∈ st.dynrel.sections, t.ptr = P.dynamic := by
            have : st.dynamic.sections.map (·.ptr) = st.dynrel.sections.map (·.ptr) := by
              rw [sizeDynamic_ok st.hdynamic]; exact modSec_map fun _ _ => rfl
            have h2 : st.dynamic.sections.map (·.ptr) = w.sections.map (·.ptr) := tag_ptr (st.dynamic_tag hsf.known)
            have h3 : P.dynamic ∈ st.dynrel.sections.map (·.ptr) := by
              rw [← this, h2]; exact List.mem_map.2 ⟨s0, hs0, e⟩
            obtain ⟨t, ht, he⟩ := List.mem_map.1 h3
            exact ⟨t, ht, he⟩
          obtain ⟨t, ht, he⟩ := hex
          simp only [modSec]
          generalize st.dynrel.sections = l at ht ⊢
          generalize (st.dynrel.dynEntries.length + _) * 2 * 8 = N
          clear hsz e5
          induction l with
          | nil => cases ht
          | cons a l ih =>
            by_cases ha : a.ptr = P.dynamic
            · rw [List.map_cons, if_pos ha, List.find?_cons_of_pos (by simp [setSize, ha])]; rfl
            · rw [List.map_cons, if_neg ha, List.find?_cons_of_neg (by simp [ha])]
              rcases List.mem_cons.1 ht with rfl | ht
              · exact absurd he ha
              · exact ih ht
        rw [e, hdynsec]
        have : tableData st.relocated st.tables P.dynamic = [serVec serDyn st.relocated.dynEntries] := rfl
        rw [this, if_neg (by decide)]
        have : (st.growth P.dynamic).add = [] := rfl
        rw [this]
        simp [serVec, length_flatMap_const length_serDyn]
      · have : st.tables.dynRels.length = st.dynrel.dynRels.length := by rw [t1, List.length_map, f5]
        rw [e]; simp [Early.growth, tableData, P.shstr, P.symstr, P.dynstr, P.interp, P.got, P.gotPlt, P.plt, P.sym, P.dynsym, P.copyRel, P.hash, P.gnuHash, P.dynamic, P.relaDyn, P.relaPlt, serVec, length_flatMap_const length_serRela, this]
      · have : st.tables.pltRels.length = st.dynrel.pltRels.length := by rw [t2, List.length_map, f6]
        rw [e]; simp [Early.growth, tableData, P.shstr, P.symstr, P.dynstr, P.interp, P.got, P.gotPlt, P.plt, P.sym, P.dynsym, P.copyRel, P.hash, P.gnuHash, P.dynamic, P.relaDyn, P.relaPlt, serVec, length_flatMap_const length_serRela, this]
      · exact absurd e hcr
      · rw [e]; simp [Early.growth, tableData, P.shstr, P.symstr, P.dynstr, P.interp, P.got, P.gotPlt, P.plt, P.sym, P.dynsym, P.copyRel, P.hash, P.dynamic, P.relaDyn, P.relaPlt]
      · rw [e]; simp [Early.growth, tableData, P.shstr, P.symstr, P.dynstr, P.interp, P.got, P.gotPlt, P.plt, P.sym, P.dynsym, P.copyRel, P.hash, P.gnuHash, P.dynamic, P.relaDyn, P.relaPlt]
  · obtain ⟨n, p, ps, _, _, _, _, _, h1, h2⟩ := hc.pushed hI h0 hs0 (by omega)
    have hg := st.growth_pushed (p := s0.ptr) (by omega)
    have ht := tableData_pushed (w := st.relocated) (w' := st.tables) (p := s0.ptr) (by omega)
    rw [hg, ht, hl0]
    by_cases hnb : s0.sh.sh_type = SHT_NOBITS
    · rw [h1 hnb, if_neg (by simpa using hnb)]; rfl
    · rw [h2 hnb, if_pos hnb]; rfl

end Dld
