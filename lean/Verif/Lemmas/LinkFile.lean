import Verif.Lemmas.TableRead
/-! # The imports of a link and their entries in the file -/
namespace Dld
open Writer Spec StringTable

variable {opts : Options} {ops : List Op} {sched : Sched} {w w' : Writer} {file : Bytes} {secs : List Section}

theorem u32_nameOff {t : StringTable} {ns : List Name} (h : Holds t ns) (hl : t.totalLen < 2 ^ 32) {n : Name} (hn : n ∈ ns) :
    u32 (nameOff ns n) = nameOff ns n := by
  refine u32_of_lt ?_
  have := nameOff_lt hn
  rw [← h.total] at this
  omega

theorem u32_nameOff_inj {t : StringTable} {ns : List Name} (h : Holds t ns) (hl : t.totalLen < 2 ^ 32) {n m : Name} (hn : n ∈ ns) (hm : m ∈ ns)
    (he : u32 (nameOff ns n) = u32 (nameOff ns m)) : n = m := by
  rw [u32_nameOff h hl hn, u32_nameOff h hl hm] at he
  exact StringTable.offset_inj hn hm he

/-- what is known about an import -/
structure ImportFacts (ns nd : List Name) (ops : List Op) (st : Early sched w) (m : Import) (n : Name) : Prop where
  sym : ∃ s, w.symtab.get (.named m.key) = some s ∧ s.dynamic = some m.ref
  scan : ∃ s, st.scanned.symtab.get (.named m.key) = some s ∧ m.got = s.inGot ∧ m.gotPlt = s.inGotPlt
  index : ∃ x, (w.dynsym.sorted sched.dynIter)[m.index]? = some x ∧ x.sym.st_name = m.ref.st_name
  dyn : ∃ x, w.dynsym.get m.ref = some x ∧ m.copy = if x.isObject then some x.sym.st_size else none
  key : m.key = u32 (nameOff ns n)
  ref : m.ref = .named (u32 (nameOff nd n))
  memS : n ∈ ns
  memD : n ∈ nd
  imported : ImportedIn ops n
  offer : ∃ e path, Op.dynsym e n path m.ref ∈ ops

theorem Writer.Early.import_facts (st : Early sched w) {ns nd : List Name} (T : TableFacts ns nd ops w)
    (hd : NamedDyns ops) (hcl : SymsClean ops) {m : Import} (hm : m ∈ st.imports) : ∃ n, ImportFacts ns nd ops st m n := by
  unfold Early.imports at hm
  rw [List.mem_filterMap] at hm
  obtain ⟨k, _, hm⟩ := hm
  unfold importOf at hm
  simp only [Option.bind_eq_some_iff, Option.map_eq_some_iff] at hm
  obtain ⟨s, hs, d, hsd, i, hi, ds, hds, rfl⟩ := hm
  obtain ⟨s0, hs0, hv⟩ := SymbolTable.view_get_some (scan_view unscan_blind st.hscan) (r := .named k) hs
  have hdyn : s.dynamic = s0.dynamic := congrArg (·.dynamic) hv
  obtain ⟨n, hn, hk, e, path, hop⟩ := T.inv.link _ _ _ hs0 (by rw [← hdyn]; exact hsd)
  have hr := (T.inv.dref _ _ _ _ hop).2 (hd _ _ _ _ hop)
  have hn := hn.resolve_left (hcl.nonempty _ _ _ _ hop)
  obtain ⟨x, hx, hxn⟩ := dynSymIndices_get hi
  refine ⟨n, ⟨s0, hs0, by rw [← hdyn]; exact hsd⟩, ⟨s, hs, rfl, rfl⟩, ⟨x, hx, hxn⟩, ⟨ds, hds, rfl⟩, ?_, hr, ?_, ?_, hn, ⟨e, path, hop⟩⟩
  · exact SymbolRef.named.inj hk
  · rw [T.symNames]
    obtain ⟨a, _, _, _, b, h1, s, sec, p, r, h2⟩ := hn
    exact .inr (mem_symNames (ops := ops) (by rw [h1]; exact List.mem_append_left _ h2))
  · exact T.dynMem n (mem_dynNames hop)

theorem importKeys_nodup (st : Early sched w) (hv : sched.Valid) {ns nd : List Name} (T : TableFacts ns nd ops w) :
    (st.imports.map (·.key)).Nodup := by
  unfold Early.imports
  have hn : (sched.symIter (AMap.keys w.symtab.symbols)).Nodup := (hv.symIter _).nodup_iff.2 T.nodup
  revert hn
  generalize sched.symIter (AMap.keys w.symtab.symbols) = l
  intro hn
  induction l with
  | nil => simp
  | cons k l ih =>
    rw [List.nodup_cons] at hn
    rw [List.filterMap_cons]
    split
    · exact ih hn.2
    · next m hm =>
      rw [List.map_cons, List.nodup_cons]
      refine ⟨?_, ih hn.2⟩
      intro hc
      rw [List.mem_map] at hc
      obtain ⟨m', hm', he⟩ := hc
      rw [List.mem_filterMap] at hm'
      obtain ⟨k', hk', hm'⟩ := hm'
      rw [importOf_key hm', importOf_key hm] at he
      subst he
      exact hn.1 hk'

theorem sublist_called (ms : List Import) : ((called ms).map (·.1)).Sublist ms := by
  unfold called
  induction ms with
  | nil => simp
  | cons m ms ih =>
    rw [List.filterMap_cons]
    cases m.gotPlt with
    | none => exact ih.cons _
    | some o => exact ih.cons_cons _

/-- the symbol table at the end, without places -/
theorem Writer.Stages.final_unplace (st : Stages sched w) : st.final.symtab.view unplace = st.dynrel.symtab.view unplace ∧
    st.final.dynsym.view unplace = st.dynrel.dynsym.view unplace := by
  obtain ⟨f1, f2, _⟩ := st.final_tables
  obtain ⟨p1, p2, _⟩ := st.patched_tables
  have h3 := special_view (F := unplace) (G := unplace) unplace_blind unplace_blind st.hspecial
  have h4 := handleRelocations_view unplace_blind st.hreloc
  exact ⟨by rw [f1, h4, h3.1, p1], by rw [f2, h3.2, p2]⟩

/-- the slots of a symbol at the end -/
theorem Writer.Stages.final_slots (st : Stages sched w) (hv : sched.Valid) (hh : Hist opts ops w) {r : SymbolRef} {s : Symbol} (hs : st.final.symtab.get r = some s) :
    ∃ s1 s2, st.scanned.symtab.get r = some s1 ∧ st.dynrel.symtab.get r = some s2 ∧ s.inGot = s1.inGot ∧ s.inPlt = s1.inPlt ∧ s.inGotPlt = s1.inGotPlt ∧
      s.relocationOffset = s2.relocationOffset ∧ s2.inGot = s1.inGot ∧ s2.inPlt = s1.inPlt ∧ s2.inGotPlt = s1.inGotPlt ∧
      s.dynamic = s1.dynamic ∧ s.sym.st_name = s1.sym.st_name ∧ s.sym.st_info = s1.sym.st_info := by
  obtain ⟨s2, h2, e2⟩ := SymbolTable.view_get_some st.final_unplace.1 hs
  obtain ⟨s1, h1, e1⟩ := SymbolTable.view_get_some (st.linkRels hv hh).tab h2
  refine ⟨s1, s2, h1, h2, ?_, ?_, ?_, congrArg (·.relocationOffset) e2, congrArg (·.inGot) e1, congrArg (·.inPlt) e1, congrArg (·.inGotPlt) e1, ?_, ?_, ?_⟩
  · exact (congrArg (·.inGot) e2).trans (congrArg (·.inGot) e1)
  · exact (congrArg (·.inPlt) e2).trans (congrArg (·.inPlt) e1)
  · exact (congrArg (·.inGotPlt) e2).trans (congrArg (·.inGotPlt) e1)
  · exact (congrArg (·.dynamic) e2).trans (congrArg (·.dynamic) e1)
  · exact (congrArg (·.sym.st_name) e2).trans (congrArg (·.sym.st_name) e1)
  · exact (congrArg (·.sym.st_info) e2).trans (congrArg (·.sym.st_info) e1)

/-- the dynamic symbols at the end, in the order of the file -/
theorem Writer.Stages.final_dynsym (st : Stages sched w) (hv : sched.Valid) (hh : Hist opts ops w) {ns nd : List Name} (T : TableFacts ns nd ops w)
    {i : Nat} {x : Symbol} (hx : (w.dynsym.sorted sched.dynIter)[i]? = some x) :
    ∃ y, (st.final.dynsym.sorted sched.dynIter)[i]? = some y ∧ st.final.dynsym.get (.named x.sym.st_name) = some y ∧ y.sym.st_name = x.sym.st_name := by
  have hview := st.final_unplace.2.trans (st.linkRels hv hh).dyn
  have hm := SymbolTable.sorted_view (F := unplace) (le' := SymbolTable.sortLe) (fun _ _ => rfl) sched.dynIter hview
  obtain ⟨y, hy, e⟩ := getElem?_of_map hm.symm hx
  refine ⟨y, hy, ?_, congrArg (·.sym.st_name) e.symm⟩
  obtain ⟨k, hk⟩ := (SymbolTable.mem_sorted hv.dynIter).1 (List.mem_of_getElem? hy)
  obtain ⟨z, hz, ez⟩ := SymbolTable.view_get_some hview (r := .named k) hk
  obtain ⟨n, _, _, hzk, _⟩ := T.dynNamed k z hz
  have : x.sym.st_name = k := by
    rw [← hzk]
    exact (congrArg (·.sym.st_name) e).trans (congrArg (·.sym.st_name) ez)
  rw [this]; exact hk

/-- the entry of an import in the dynamic symbol table of the file -/
theorem ImportFacts.entry {st : Stages sched w} {ns nd : List Name} {m : Import} {n : Name} (F : ImportFacts ns nd ops st.toEarly m n) (hv : sched.Valid)
    (hh : Hist opts ops w) (T : TableFacts ns nd ops w) :
    ∃ y, (st.final.dynsym.sorted sched.dynIter)[m.index]? = some y ∧ st.final.dynsym.get m.ref = some y ∧ y.sym.st_name = u32 (nameOff nd n) := by
  obtain ⟨x, hx, hxn⟩ := F.index
  obtain ⟨y, h1, h2, h3⟩ := st.final_dynsym hv hh T hx
  have hr : m.ref.st_name = u32 (nameOff nd n) := by rw [F.ref]; rfl
  refine ⟨y, h1, ?_, by rw [h3, hxn, hr]⟩
  rw [hxn, hr] at h2
  rw [F.ref]; exact h2

/-! ### Relocations -/

/-- the rebasing of relocations -/
theorem Run.final_rels (h : Run opts ops sched w w' file secs) (hf : FlagsOk ops) (st : Stages sched w) (hst : st.final = w')
    {got g cr : Section} (h1 : got ∈ secs) (p1 : got.ptr = P.got) (h2 : g ∈ secs) (p2 : g.ptr = P.gotPlt) (h3 : cr ∈ secs) (p3 : cr.ptr = P.copyRel) :
    w'.dynRels = st.dynrel.dynRels.map (rebaseRela got.sh.sh_addr g.sh.sh_addr cr.sh.sh_addr) ∧
    w'.pltRels = st.dynrel.pltRels.map (rebaseRela got.sh.sh_addr g.sh.sh_addr cr.sh.sh_addr) := by
  subst hst
  obtain ⟨_, _, _, _, hpost⟩ := st.posts
  obtain ⟨_, _, t3, t4, t5, t6, _⟩ := st.final_tables
  obtain ⟨⟨a, b, c, ha, hb, hc, e1, e2⟩, _⟩ := computeTables_ok st.htables
  obtain ⟨ma, pa⟩ := sec_ok ha
  obtain ⟨mb, pb⟩ := sec_ok hb
  obtain ⟨mc, pc⟩ := sec_ok hc
  have ea := h.same_addr hf hpost ma h1 (by rw [p1, pa])
  have eb := h.same_addr hf hpost mb h2 (by rw [p2, pb])
  have ec := h.same_addr hf hpost mc h3 (by rw [p3, pc])
  rw [ea, eb, ec, t5] at e1
  rw [ea, eb, ec, t6] at e2
  exact ⟨by rw [t3, e1], by rw [t4, e2]⟩

theorem rebase_slot (a b c o i : Nat) : rebaseRela a b c (rela o i 7) = rela (o + b) i 7 := by
  unfold rebaseRela rela
  have : r_type (i * 2 ^ 32 + 7) = 7 := by unfold r_type; omega
  simp [this, R_X86_64_GLOB_DAT, R_X86_64_JUMP_SLOT]

theorem rebase_glob (a b c o i : Nat) : rebaseRela a b c (rela o i 6) = rela (o + a) i 6 := by
  unfold rebaseRela rela
  have : r_type (i * 2 ^ 32 + 6) = 6 := by unfold r_type; omega
  simp [this, R_X86_64_GLOB_DAT]

theorem rebase_copy (a b c o i : Nat) : rebaseRela a b c (rela o i 5) = rela (o + c) i 5 := by
  unfold rebaseRela rela
  have : r_type (i * 2 ^ 32 + 5) = 5 := by unfold r_type; omega
  simp [this, R_X86_64_GLOB_DAT, R_X86_64_JUMP_SLOT, R_X86_64_COPY]

theorem rela_toSpec (o i t : Nat) (ht : t < 2 ^ 32) : (rela o i t).toSpec = ⟨o, i, t, 0⟩ := by
  simp only [rela, Rela.toSpec]
  congr 1
  · omega
  · omega

end Dld
