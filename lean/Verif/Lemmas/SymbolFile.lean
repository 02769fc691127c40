import Verif.Lemmas.Defined
import Verif.Props.Got
import Verif.Spec.Values
/-! # The symbols of the file by name -/
namespace Dld
open Writer Spec StringTable
variable {opts : Options} {ops : List Op} {sched : Sched} {w w' : Writer} {file : Bytes} {secs : List Section}

theorem Holds.get_mem {t : StringTable} {ns : List Name} (h : Holds t ns) {n : Name} (hn : n ∈ ns) :
    ∃ e, t.get n = some e ∧ e.offset = nameOff ns n := by
  refine ⟨_, by rw [StringTable.get, h.get?_mem hn]; rfl, rfl⟩

theorem Holds.get_some {t : StringTable} {ns : List Name} (h : Holds t ns) {n : Name} {e : Entry} (he : t.get n = some e) :
    n ∈ ns ∧ e.offset = nameOff ns n := by
  by_cases hn : n ∈ ns
  · obtain ⟨e', h1, h2⟩ := Holds.get_mem h hn
    rw [h1] at he; cases he
    exact ⟨hn, h2⟩
  · rw [StringTable.get, h.get?_not_mem hn] at he; cases he

/-- section symbols have section references -/
theorem Hist.section_ref (h : Hist opts ops w) {s : Sym} {sec : Option SectionRef} {n : Name} {path : Path} {r : SymbolRef}
    (hm : Op.sym s sec n path r ∈ ops) (hs : stType s.st_info = STT_SECTION) : ∃ k i, r = .section k i := by
  induction h with
  | init => cases hm
  | @step ops op w w' h hstep ih =>
    rcases List.mem_append.1 hm with hm | hm
    · exact ih hm
    · rw [List.mem_singleton] at hm
      subst hm
      cases hstep with
      | sym hstep =>
        simp only [Writer.addSymbol] at hstep
        split at hstep
        · cases hstep
        · next symtab r' ha =>
          simp only [bind_ok] at hstep
          obtain ⟨_, _, h2⟩ := hstep
          cases h2
          unfold SymbolTable.addSymbol at ha
          simp only [hs, if_true] at ha
          cases ha
          exact ⟨_, _, rfl⟩

theorem filter_one {α β : Type} {f : α → β} {l : List α} (hn : (l.map f).Nodup) {y : α} (hy : y ∈ l) {p : α → Bool}
    (hp : ∀ x ∈ l, p x = true ↔ f x = f y) : l.filter p = [y] := by
  induction l with
  | nil => cases hy
  | cons a l ih =>
    rw [List.map_cons, List.nodup_cons] at hn
    rw [List.filter_cons]
    rcases List.mem_cons.1 hy with rfl | hy
    · rw [if_pos ((hp _ (by simp)).2 rfl)]
      congr 1
      rw [List.filter_eq_nil_iff]
      intro x hx e
      exact hn.1 (((hp x (by simp [hx])).1 e) ▸ List.mem_map_of_mem hx)
    · rw [if_neg, ih hn.2 hy fun x hx => hp x (by simp [hx])]
      intro e
      exact hn.1 (((hp a (by simp)).1 e) ▸ List.mem_map_of_mem hy)

/-- the final symbol has the name of the first one -/
theorem GoodLink.final_name (h : GoodLink opts ops sched w w' file secs) {ns nd : List Name} (T : TableFacts ns nd ops w) {k : Nat} {y : Symbol}
    (hy : w'.symtab.get (.named k) = some y) : ∃ n ∈ ns, k = u32 (nameOff ns n) ∧ y.sym.st_name = k := by
  obtain ⟨st, rfl⟩ := h.run.stages
  obtain ⟨s1, _, h1, _, _, _, _, _, _, _, _, _, hn, _⟩ := st.final_slots h.run.valid h.run.hist hy
  obtain ⟨s2, h2, e⟩ := SymbolTable.view_get_some (scan_view sym_blind st.hscan) h1
  obtain ⟨n, hn1, hk, hk2, _⟩ := T.named k s2 h2
  refine ⟨n, hn1, hk, ?_⟩
  rw [hn, show s1.sym = s2.sym from e, hk2]

theorem SymbolTable.sorted_keys {t : SymbolTable} (hk : ∀ k s, AMap.get? t.symbols k = some s → s.sym.st_name = k)
    (hn : (AMap.keys t.symbols).Nodup) {order : List Nat → List Nat} (ho : ∀ l, (order l).Perm l) :
    ((t.sorted order).map (·.sym.st_name)).Nodup := by
  unfold SymbolTable.sorted
  refine ((stableSort_perm _ _).map _).nodup_iff.2 ?_
  have hsub : ∀ k ∈ order (AMap.keys t.symbols), ∃ s, AMap.get? t.symbols k = some s ∧ s.sym.st_name = k := by
    intro k hm
    obtain ⟨s, hs⟩ := Option.isSome_iff_exists.1 (AMap.get?_isSome.2 ((ho _).mem_iff.1 hm))
    exact ⟨s, hs, hk k s hs⟩
  have hnd : (order (AMap.keys t.symbols)).Nodup := (ho _).nodup_iff.2 hn
  have : ((order (AMap.keys t.symbols)).filterMap (AMap.get? t.symbols)).map (·.sym.st_name) = order (AMap.keys t.symbols) := by
    generalize order (AMap.keys t.symbols) = l at hsub
    clear hnd
    induction l with
    | nil => rfl
    | cons a l ih =>
      obtain ⟨s, h1, h2⟩ := hsub a (by simp)
      rw [List.filterMap_cons, h1]
      simp only [List.map_cons, h2]
      rw [ih fun k hk => hsub k (by simp [hk])]
  rw [this]; exact hnd

theorem GoodLink.symbol_named (h : GoodLink opts ops sched w w' file secs) {ns nd : List Name} (T : TableFacts ns nd ops w) {n : Name} (hns : n ∈ ns)
    {y : Symbol} (hy : w'.symtab.get (.named (u32 (nameOff ns n))) = some y) : symbolsNamed file n = [y.sym.toSpec] := by
  obtain ⟨a, b, c, d, e, f, X⟩ := h.tables
  have hb1 : bodyNamed file b!".symtab" = bodyOf file a.sh.toSpec := (sectionNamed_one X.msymtab.2.2).2.1
  have hb2 : bodyNamed file b!".strtab" = bodyOf file c.sh.toSpec := (sectionNamed_one X.mstrtab.2.2).2.1
  have hz : ∀ m ∈ ns, (0 : UInt8) ∉ m := by
    intro m hm
    rcases (T.symNames m).1 hm with rfl | hm
    · simp
    · obtain ⟨s, sec, path, r, hop⟩ := mem_symNames_iff.1 hm
      exact h.symNames.sym _ _ _ _ _ hop
  have hk : ∀ k s, AMap.get? w'.symtab.symbols k = some s → ∃ n ∈ ns, k = u32 (nameOff ns n) ∧ s.sym.st_name = k := fun k s hs => h.final_name T hs
  have hkeys : (AMap.keys w'.symtab.symbols).Nodup := by
    obtain ⟨st, rfl⟩ := h.run.stages
    rw [SymbolTable.view_keys st.final_unplace.1, SymbolTable.view_keys (st.linkRels h.run.valid h.run.hist).tab,
      SymbolTable.view_keys (scan_view sym_blind st.hscan)]
    exact T.nodup
  have hmem : y ∈ w'.symtab.sorted sched.symIter := (SymbolTable.mem_sorted h.run.valid.symIter).2 ⟨_, hy⟩
  unfold symbolsNamed
  rw [hb1, hb2, X.syms, X.strs, List.filter_map]
  have := filter_one (f := fun s : Symbol => s.sym.st_name) (SymbolTable.sorted_keys (fun k s hs => by
    obtain ⟨_, _, _, h1⟩ := hk k s hs; exact h1) hkeys h.run.valid.symIter) hmem
    (p := (fun s : ESym => cstrAt w.symstr.chunk s.name == some n) ∘ (·.sym.toSpec)) ?_
  · rw [this]; rfl
  · intro x hx
    obtain ⟨k, hkx⟩ := (SymbolTable.mem_sorted h.run.valid.symIter).1 hx
    obtain ⟨m, hm, e1, e2⟩ := hk k x hkx
    obtain ⟨m', hm', e1', e2'⟩ := hk _ y hy
    have hname : (x.sym.toSpec).name = nameOff ns m := by
      show x.sym.st_name = _
      rw [e2, e1, u32_nameOff T.symstr h.symstr hm]
    simp only [Function.comp_apply, beq_iff_eq, hname]
    rw [Holds.cstr T.symstr hm (hz m hm), e2, e2', e1]
    constructor
    · intro e; cases e; rfl
    · intro e; rw [u32_nameOff_inj T.symstr h.symstr hm hns e]

/-- names other than the linker's own -/
theorem TableFacts.ordinary {ns nd : List Name} (T : TableFacts ns nd ops w) (hl : w.symstr.totalLen < 2 ^ 32) {n : Name} (hn : n ∈ ns)
    (hx : n ∉ linkerSymbols) : Ordinary w.symstr (.named (u32 (nameOff ns n))) := by
  have key : ∀ m ∈ linkerSymbols, NotNamed w.symstr (.named (u32 (nameOff ns n))) m := by
    intro m hm e he hr
    obtain ⟨h1, h2⟩ := Holds.get_some T.symstr he
    rw [h2] at hr
    rw [u32_nameOff_inj T.symstr hl h1 hn (SymbolRef.named.inj hr)] at hm
    exact hx hm
  exact ⟨⟨key _ (by decide), key _ (by decide), key _ (by decide), key _ (by decide)⟩, key _ (by decide)⟩

/-- a reference by name was returned for a mention of the name -/
theorem GoodLink.named_ref (h : GoodLink opts ops sched w w' file secs) {ns nd : List Name} (T : TableFacts ns nd ops w) {n m : Name} (hn : n ∈ ns)
    {s : Sym} {sec : Option SectionRef} {path : Path} {r : SymbolRef} (hr : r = .named (u32 (nameOff ns n)))
    (hm : Op.sym s sec m path r ∈ ops) : m = n ∧ s.st_info % 16 ≠ 3 := by
  have h3 : s.st_info % 16 ≠ 3 := by
    intro e
    obtain ⟨k, i, e⟩ := h.run.hist.section_ref hm e
    rw [hr] at e; cases e
  have h1 := (T.inv.sref _ _ _ _ _ hm).2 h3
  rw [hr] at h1
  exact ⟨(u32_nameOff_inj T.symstr h.symstr hn ((T.symNames m).2 (.inr (mem_symNames hm))) (SymbolRef.named.inj h1)).symm, h3⟩

theorem offsetOf_startOf (hc : CleanInputs ops) {a b : List Op} {m : Name} {sh : SectionHeader} {d : Option Bytes} {sr : SectionRef}
    (e : ops = a ++ Op.push m sh d sr :: b) (hm : m ≠ []) (hd : d.isSome ∨ pushesOf m a = []) : startOf m a = offsetOf m a := by
  unfold startOf offsetOf
  rcases hd with hd | hd
  · have := hc.datas (by rw [e]; simp : Op.push m sh d sr ∈ ops) hm hd
    congr 1
    refine List.map_congr_left fun q hq => ?_
    obtain ⟨x, hx, hl⟩ := this q (by rw [e, pushesOf_append]; simp [hq])
    rw [hx, ← hl]; rfl
  · rw [hd]; rfl

theorem GoodRun.shndx (h : GoodRun opts ops sched w w' file secs) {i : Nat} {t : Section} (hi : secs[i]? = some t) :
    (shdrs file)[u16 i]? = some t.sh.toSpec := by
  have h1 := h.fit.count
  have h2 : i < secs.length := (List.getElem?_eq_some_iff.1 hi).1
  rw [(h.run.reads h.good h.names h.fit).shdrs, u16, Nat.mod_eq_of_lt (by omega), List.getElem?_map, hi]
  rfl

/-! ### Reading concrete links quickly -/

/-- the sections of a name, from the writer -/
def secsNamed (w : Writer) (secs : List Section) (n : Name) : List EShdr :=
  (secs.filter fun t => Dld.nameOf w t == some n).map (·.sh.toSpec)

/-- the symbols of a name, from the writer -/
def symsNamed (sched : Sched) (w w' : Writer) (n : Name) : List ESym :=
  ((w'.symtab.sorted sched.symIter).map (·.sym.toSpec)).filter fun s => cstrAt w.symstr.chunk s.name == some n

theorem GoodRun.secsNamed_eq (h : GoodRun opts ops sched w w' file secs) (n : Name) : secsNamed w secs n = sectionsNamed file n := (h.named n).symm

theorem GoodLink.symsNamed_eq (h : GoodLink opts ops sched w w' file secs) (n : Name) : symsNamed sched w w' n = symbolsNamed file n := by
  obtain ⟨a, b, c, d, e, f, X⟩ := h.tables
  have hb1 : bodyNamed file b!".symtab" = bodyOf file a.sh.toSpec := (sectionNamed_one X.msymtab.2.2).2.1
  have hb2 : bodyNamed file b!".strtab" = bodyOf file c.sh.toSpec := (sectionNamed_one X.mstrtab.2.2).2.1
  unfold symbolsNamed symsNamed
  rw [hb1, hb2, X.syms, X.strs]

end Dld
