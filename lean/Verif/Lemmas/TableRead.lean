import Verif.Lemmas.PltFile
import Verif.Props.File
/-! # Reading symbols and relocations from the file -/
namespace Dld
open Writer Spec StringTable

variable {opts : Options} {ops : List Op} {sched : Sched} {w w' : Writer} {file : Bytes} {secs : List Section}

/-- A `GoodRun` whose symbol tables and relocations fit their fields: the string tables are smaller
than 4 GiB, every number of a symbol or relocation fits the field that holds it; no symbol name
contains a NUL, and the dynamic symbols of libraries are not section symbols. -/
structure GoodLink (opts : Options) (ops : List Op) (sched : Sched) (w w' : Writer) (file : Bytes) (secs : List Section) : Prop
    extends GoodRun opts ops sched w w' file secs where
  symstr : w.symstr.totalLen < 2 ^ 32
  dynstr : w.dynstr.totalLen < 2 ^ 32
  syms : ∀ e ∈ w'.symtab.symbols, e.2.sym.Fits
  dynsyms : ∀ e ∈ w'.dynsym.symbols, e.2.sym.Fits
  dynRels : ∀ r ∈ w'.dynRels, r.Fits
  pltRels : ∀ r ∈ w'.pltRels, r.Fits
  symNames : SymsClean ops
  named : NamedDyns ops

/-! ### Decoding tables -/

theorem length_serSym (s : Sym) : (serSym s).length = 24 := by simp [serSym]

theorem symsOf_ser {l : List Sym} (h : ∀ s ∈ l, s.Fits) : symsOf (serVec serSym l) = l.map (·.toSpec) := by
  unfold symsOf
  have hl : (serVec serSym l).length / 24 = l.length := by
    have : (serVec serSym l).length = l.length * 24 := length_flatMap_const (f := serSym) (k := 24) length_serSym l
    omega
  rw [hl]
  refine range_map_decode fun i a ha => ?_
  rw [decodeSym_drop]
  have := serVec_drop (f := serSym) (k := 24) length_serSym ha [] []
  simp only [List.nil_append, List.append_nil, List.length_nil, Nat.zero_add] at this
  rw [this]
  exact decodeSym_ser a (h a (List.mem_of_getElem? ha)) _

theorem relasOf_ser {l : List Rela} (h : ∀ r ∈ l, r.Fits) : relasOf (serVec serRela l) = l.map (·.toSpec) := by
  unfold relasOf
  have hl : (serVec serRela l).length / 24 = l.length := by
    have : (serVec serRela l).length = l.length * 24 := length_flatMap_const (f := serRela) (k := 24) length_serRela l
    omega
  rw [hl]
  refine range_map_decode fun i a ha => ?_
  rw [decodeRela_drop]
  have := serVec_drop (f := serRela) (k := 24) length_serRela ha [] []
  simp only [List.nil_append, List.append_nil, List.length_nil, Nat.zero_add] at this
  rw [this]
  exact decodeRela_ser a (h a (List.mem_of_getElem? ha)) _

theorem chunk_serVec (t : SymbolTable) (order : List Nat → List Nat) : t.chunk order = serVec serSym ((t.sorted order).map (·.sym)) := by
  unfold SymbolTable.chunk serVec
  rw [List.flatMap_map]

theorem SymbolTable.mem_sorted {t : SymbolTable} {order : List Nat → List Nat} (ho : ∀ l, (order l).Perm l) {s : Symbol} :
    s ∈ t.sorted order ↔ ∃ k, AMap.get? t.symbols k = some s := by
  unfold SymbolTable.sorted
  rw [(stableSort_perm _ _).mem_iff, List.mem_filterMap]
  constructor
  · rintro ⟨k, _, h⟩; exact ⟨k, h⟩
  · rintro ⟨k, h⟩
    exact ⟨k, (ho _).mem_iff.2 (AMap.get?_isSome.1 (by rw [h]; rfl)), h⟩

/-- an own section with its bytes -/
theorem GoodRun.own_body (h : GoodRun opts ops sched w w' file secs) (st : Stages sched w) (hst : st.final = w') {p : Nat}
    (hp : p ∈ [P.symstr, P.dynstr, P.got, P.sym, P.dynsym, P.relaDyn, P.relaPlt, P.copyRel]) :
    ∃ t ∈ secs, t.ptr = p ∧ sectionsNamed file (ptrName p) = [t.sh.toSpec] ∧ bodyOf file t.sh.toSpec = ownBytes st p := by
  have hx : p < P.first ∧ p ≠ P.null ∧ p ≠ P.interp ∧ p ≠ P.plt ∧ p ≠ P.gotPlt := by
    revert hp; revert p; decide
  have hb : p ∈ (baseIdents opts.hashStyle).map (·.1) := by
    clear hx; revert hp; cases opts.hashStyle <;> revert p <;> decide
  obtain ⟨t, ht, htp, hn⟩ := h.own hb
  refine ⟨t, ht, htp, hn, ?_⟩
  rw [(h.run.reads h.good h.names h.fit).body t ht]
  subst htp
  exact h.run.own_bytes h.good.clean st hst ht hx.1 hx.2.1 hx.2.2.1 hx.2.2.2.1 hx.2.2.2.2

/-- the tables of the file -/
structure FileTables (sched : Sched) (w w' : Writer) (file : Bytes) (secs : List Section) (symtab dynsym strtab dynstr relaPlt relaDyn : Section) : Prop where
  msymtab : symtab ∈ secs ∧ symtab.ptr = P.sym ∧ sectionsNamed file b!".symtab" = [symtab.sh.toSpec]
  mdynsym : dynsym ∈ secs ∧ dynsym.ptr = P.dynsym ∧ sectionsNamed file b!".dynsym" = [dynsym.sh.toSpec]
  mstrtab : strtab ∈ secs ∧ strtab.ptr = P.symstr ∧ sectionsNamed file b!".strtab" = [strtab.sh.toSpec]
  mdynstr : dynstr ∈ secs ∧ dynstr.ptr = P.dynstr ∧ sectionsNamed file b!".dynstr" = [dynstr.sh.toSpec]
  mrelaPlt : relaPlt ∈ secs ∧ relaPlt.ptr = P.relaPlt ∧ sectionsNamed file b!".rela.plt" = [relaPlt.sh.toSpec]
  mrelaDyn : relaDyn ∈ secs ∧ relaDyn.ptr = P.relaDyn ∧ sectionsNamed file b!".rela.dyn" = [relaDyn.sh.toSpec]
  syms : symsOf (bodyOf file symtab.sh.toSpec) = (w'.symtab.sorted sched.symIter).map (·.sym.toSpec)
  dyns : symsOf (bodyOf file dynsym.sh.toSpec) = (w'.dynsym.sorted sched.dynIter).map (·.sym.toSpec)
  strs : bodyOf file strtab.sh.toSpec = w.symstr.chunk
  dynstrs : bodyOf file dynstr.sh.toSpec = w.dynstr.chunk
  plts : relasOf (bodyOf file relaPlt.sh.toSpec) = w'.pltRels.map (·.toSpec)
  rels : relasOf (bodyOf file relaDyn.sh.toSpec) = w'.dynRels.map (·.toSpec)

theorem GoodLink.tables (h : GoodLink opts ops sched w w' file secs) : ∃ a b c d e f, FileTables sched w w' file secs a b c d e f := by
  obtain ⟨st, hst⟩ := h.run.stages
  obtain ⟨a, a1, a2, a3, a4⟩ := h.own_body st hst (p := P.sym) (by simp)
  obtain ⟨b, b1, b2, b3, b4⟩ := h.own_body st hst (p := P.dynsym) (by simp)
  obtain ⟨c, c1, c2, c3, c4⟩ := h.own_body st hst (p := P.symstr) (by simp)
  obtain ⟨d, d1, d2, d3, d4⟩ := h.own_body st hst (p := P.dynstr) (by simp)
  obtain ⟨e, e1, e2, e3, e4⟩ := h.own_body st hst (p := P.relaPlt) (by simp)
  obtain ⟨f, f1, f2, f3, f4⟩ := h.own_body st hst (p := P.relaDyn) (by simp)
  refine ⟨a, b, c, d, e, f, ⟨a1, a2, a3⟩, ⟨b1, b2, b3⟩, ⟨c1, c2, c3⟩, ⟨d1, d2, d3⟩, ⟨e1, e2, e3⟩, ⟨f1, f2, f3⟩, ?_, ?_, c4, d4, ?_, ?_⟩
  · rw [a4]
    have : ownBytes st P.sym = w'.symtab.chunk sched.symIter := by rw [← hst]; rfl
    rw [this, chunk_serVec, symsOf_ser, List.map_map]; rfl
    intro s hs
    obtain ⟨y, hy, rfl⟩ := List.mem_map.1 hs
    obtain ⟨k, hk⟩ := (SymbolTable.mem_sorted h.run.valid.symIter).1 hy
    exact h.syms _ (AMap.mem_of_get? hk)
  · rw [b4]
    have : ownBytes st P.dynsym = w'.dynsym.chunk sched.dynIter := by rw [← hst]; rfl
    rw [this, chunk_serVec, symsOf_ser, List.map_map]; rfl
    intro s hs
    obtain ⟨y, hy, rfl⟩ := List.mem_map.1 hs
    obtain ⟨k, hk⟩ := (SymbolTable.mem_sorted h.run.valid.dynIter).1 hy
    exact h.dynsyms _ (AMap.mem_of_get? hk)
  · rw [e4]
    have : ownBytes st P.relaPlt = serVec serRela w'.pltRels := by rw [← hst]; rfl
    rw [this, relasOf_ser h.pltRels]
  · rw [f4]
    have : ownBytes st P.relaDyn = serVec serRela w'.dynRels := by rw [← hst]; rfl
    rw [this, relasOf_ser h.dynRels]

/-! ### Checking a concrete link -/

instance (s : Sym) : Decidable s.Fits :=
  decidable_of_iff (s.st_name < 256 ^ 4 ∧ s.st_info < 256 ^ 1 ∧ s.st_other < 256 ^ 1 ∧ s.st_shndx < 256 ^ 2 ∧ s.st_value < 256 ^ 8 ∧ s.st_size < 256 ^ 8)
    ⟨fun ⟨a, b, c, d, e, f⟩ => ⟨a, b, c, d, e, f⟩, fun ⟨a, b, c, d, e, f⟩ => ⟨a, b, c, d, e, f⟩⟩

instance (r : Rela) : Decidable r.Fits :=
  decidable_of_iff (r.r_offset < 256 ^ 8 ∧ r.r_info < 256 ^ 8 ∧ -(256 ^ 8 / 2 : Nat) ≤ r.r_addend ∧ r.r_addend < (256 ^ 8 / 2 : Nat))
    ⟨fun ⟨a, b, c, d⟩ => ⟨a, b, c, d⟩, fun ⟨a, b, c, d⟩ => ⟨a, b, c, d⟩⟩

/-- a check of `SymsClean` and `NamedDyns` -/
def cleanSyms (ops : List Op) : Bool := ops.all fun
  | .sym _ _ n _ _ => !n.contains 0
  | .dynsym s n _ _ => !n.contains 0 && n != [] && stType s.st_info != STT_SECTION
  | _ => true

theorem cleanSyms_ok {ops : List Op} (h : cleanSyms ops = true) : SymsClean ops ∧ NamedDyns ops := by
  unfold cleanSyms at h
  rw [List.all_eq_true] at h
  refine ⟨⟨?_, ?_, ?_⟩, ?_⟩
  · intro s sec n path r hm; simpa using h _ hm
  · intro s n path r hm
    have := h _ hm
    simp only [Bool.and_eq_true] at this
    simpa using this.1.1
  · intro s n path r hm
    have := h _ hm
    simp only [Bool.and_eq_true] at this
    simpa using this.1.2
  · intro s n path r hm
    have := h _ hm
    simp only [Bool.and_eq_true] at this
    simpa using this.2

/-- a check of the sizes in `GoodLink` -/
def linkFits (w w' : Writer) : Bool :=
  w.symstr.totalLen < 2 ^ 32 && w.dynstr.totalLen < 2 ^ 32 && w'.symtab.symbols.all (fun e => decide e.2.sym.Fits) &&
  w'.dynsym.symbols.all (fun e => decide e.2.sym.Fits) && w'.dynRels.all (fun r => decide r.Fits) && w'.pltRels.all fun r => decide r.Fits

/-- a concrete link that satisfies a decidable condition -/
theorem GoodLink.of_runs {opts : Options} {ops : List Op} {sched : Sched} {P : Writer → Writer → Bytes → List Section → Bool}
    (hv : sched.Valid) (hg : goodOps ops = true) (hc : cleanSyms ops = true)
    (h : runs opts ops sched (fun w w' f s => numbersFit w w' f s && (linkFits w w' && P w w' f s)) = true) :
    ∃ w w' f s, GoodLink opts ops sched w w' f s ∧ P w w' f s = true := by
  obtain ⟨w, w', f, s, hr, hp⟩ := GoodRun.of_runs hv hg h
  rw [Bool.and_eq_true] at hp
  obtain ⟨hp, hP⟩ := hp
  simp only [linkFits, Bool.and_eq_true, List.all_eq_true, decide_eq_true_eq] at hp
  obtain ⟨⟨⟨⟨⟨a, b⟩, c⟩, d⟩, e⟩, f'⟩ := hp
  obtain ⟨c1, c2⟩ := cleanSyms_ok hc
  exact ⟨w, w', f, s, ⟨hr, a, b, c, d, e, f', c1, c2⟩, hP⟩

theorem demo_clean : cleanSyms demoOps = true := by decide +kernel

end Dld
