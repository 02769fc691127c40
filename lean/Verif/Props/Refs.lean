import Verif.Spec.Refs
import Verif.Props.Values
/-! # References in the output -/
namespace Dld
open Writer Spec StringTable
variable {opts : Options} {ops a b a' b' : List Op} {sched : Sched} {w w' : Writer} {file : Bytes} {secs : List Section}

theorem relocsIn_eq (ops : List Op) (sr : SectionRef) : relocsIn ops sr = relocsAt sr ops := rfl

theorem scanned_offset (t : SymbolTable) (e : Rela × SymbolRef) :
    (scannedReloc t e).2 = e.2 ∧ (scannedReloc t e).1.r_offset = e.1.r_offset ∧ (scannedReloc t e).1.r_addend = e.1.r_addend := by
  unfold scannedReloc; split <;> exact ⟨rfl, rfl, rfl⟩

theorem scanned_type (t : SymbolTable) (e : Rela × SymbolRef) :
    relType (scannedReloc t e).1 = if relType e.1 = 4 ∧ ¬ Imported t e.2 then 2 else relType e.1 := by
  unfold scannedReloc UsesPlt
  split
  · unfold relType; simp
  · rfl

/-- the bytes that are patched are among those that may change -/
theorem region_in_site {t t0 : SymbolTable} (e : Rela × SymbolRef) {s : Symbol} (hs : t.get e.2 = some s) :
    (siteOf e.1).1 ≤ (regionOf t (scannedReloc t0 e)).1 ∧
      (regionOf t (scannedReloc t0 e)).1 + (regionOf t (scannedReloc t0 e)).2 ≤ (siteOf e.1).1 + (siteOf e.1).2 := by
  have hty := scanned_type t0 e
  obtain ⟨h1, h2, _⟩ := scanned_offset t0 e
  generalize scannedReloc t0 e = x at *
  unfold regionOf
  rw [h1, hs]
  unfold patchRegion siteOf
  have e0 : r_type x.1.r_info = relType x.1 := rfl
  have hx : relType x.1 = 4 ∨ relType x.1 = 2 ↔ relType e.1 = 4 ∨ relType e.1 = 2 := by
    rw [hty]; split <;> simp_all
  have hx' : ¬ (relType e.1 = 4 ∨ relType e.1 = 2) → relType x.1 = relType e.1 := by
    intro h; rw [hty, if_neg (fun h' => h (.inl h'.1))]
  simp only [e0, h2, R_X86_64_NONE, R_X86_64_64, R_X86_64_GOTPCRELX, R_X86_64_REX_GOTPCRELX]
  by_cases h4 : relType e.1 = 4 ∨ relType e.1 = 2
  · have h4' := hx.2 h4
    rw [if_neg (by omega), if_neg (by omega), if_neg (by omega), if_neg (by omega), if_neg (by omega), if_neg (by omega),
      if_neg (by omega), if_neg (by omega)]
    exact ⟨Nat.le_refl _, Nat.le_refl _⟩
  · rw [hx' h4]
    by_cases a0 : relType e.1 = 0
    · simp [a0]
    by_cases a1 : relType e.1 = 1
    · simp [a1]
    by_cases a2 : relType e.1 = 41
    · by_cases hd : s.dynamic = none
      · simp [a2, hd]
      · simp [a2, hd]; omega
    by_cases a3 : relType e.1 = 42
    · by_cases hd : s.dynamic = none
      · simp [a3, hd]
      · simp [a3, hd]; omega
    simp [a0, a1, a2, a3]

/-- the relocations of a chunk are apart if their sites are -/
theorem sites_apart {t t0 : SymbolTable} {l : List (Rela × SymbolRef)} (hall : ∀ e ∈ l, ∃ s, t.get e.2 = some s)
    (h : l.Pairwise fun e e' => Disjoint (siteOf e.1) (siteOf e'.1)) :
    (l.map (scannedReloc t0)).Pairwise fun a b => Apart (regionOf t a) (regionOf t b) := by
  rw [List.pairwise_map]
  refine List.Pairwise.imp_of_mem ?_ h
  intro a b ha hb hab
  obtain ⟨sa, hsa⟩ := hall a ha
  obtain ⟨sb, hsb⟩ := hall b hb
  have h1 := region_in_site (t0 := t0) a hsa
  have h2 := region_in_site (t0 := t0) b hsb
  rcases hab with hab | hab
  · left; omega
  · right; omega

theorem applied_symbols {c c' : Chunk} {got plt : Nat} {t dt : SymbolTable} (h : c.applyRelocations got plt t dt = .ok c') :
    ∀ e ∈ c.relocations, ∃ s, t.get e.2 = some s := by
  rw [Chunk.applyRelocations, bind_ok] at h
  obtain ⟨out, h, -⟩ := h
  generalize c.data = d at h
  generalize c.relocations = l at h
  induction l generalizing d with
  | nil => intro e he; cases he
  | cons x l ih =>
    rw [foldM'_cons, bind_ok] at h
    obtain ⟨d1, h1, h2⟩ := h
    simp only [bind_ok, unwrap_ok] at h1
    obtain ⟨_, _, s, hs, _⟩ := h1
    intro e he
    rcases List.mem_cons.1 he with rfl | he
    · exact ⟨s, hs⟩
    · exact ih _ h2 e he

/-- **The bytes of a reference in the output.** -/
theorem GoodRun.ref_applied_in (G : GoodRun opts ops sched w w' file secs) {m : Name} {off : Nat} {rel : Rela} {y : SymbolRef} {data : Bytes}
    (hr : RefersIn ops m off rel y data) (hm : m ≠ []) :
    ∃ o base out sym, sectionsNamed file m = [o] ∧ off = base + rel.r_offset ∧ w'.symtab.get y = some sym ∧
      applyRelocation (o.addr + base) data (scannedReloc w.symtab (rel, y)).1 sym w'.dynsym (addrNamed file b!".got") (addrNamed file b!".plt") = .ok out ∧
      (∀ i, (patchRegion (scannedReloc w.symtab (rel, y)).1 sym).1 ≤ i →
        i < (patchRegion (scannedReloc w.symtab (rel, y)).1 sym).1 + (patchRegion (scannedReloc w.symtab (rel, y)).1 sym).2 → i < data.length →
        (bodyOf file o)[base + i]? = out[i]?) ∧
      base + data.length ≤ (bodyOf file o).length ∧ ∃ sh sr path, Op.push m sh (some data) sr ∈ ops ∧ Op.reloc rel y sr path ∈ ops := by
  obtain ⟨a, sh, sr, b, path, e, hop, hoff, hap⟩ := hr
  obtain ⟨g, hg, pg, ng⟩ := G.own (p := P.got) (by simp [baseIdents])
  obtain ⟨pl, hpl, ppl, npl⟩ := G.own (p := P.plt) (by simp [baseIdents])
  obtain ⟨t, ht, htp, hsn, hbody, c0, c', hd0, hr0, ⟨c, hcd, hcr, hca, happ⟩, hfit, hsl⟩ := G.push_fate e hm hg pg hpl ppl
  have hall := applied_symbols happ
  rw [hcr, hr0] at hall
  have hap' : (c.relocations).Pairwise fun a b => Apart (regionOf w'.symtab a) (regionOf w'.symtab b) := by
    rw [hcr, hr0]
    refine sites_apart (fun e he => ?_) hap
    obtain ⟨s, hs⟩ := hall _ (List.mem_map_of_mem he)
    rw [(scanned_offset _ _).1] at hs
    exact ⟨s, hs⟩
  obtain ⟨hlen, heach, -⟩ := C35_each_field hap' happ
  obtain ⟨addr, sym, out, h1, h2, h3, h4⟩ := heach (scannedReloc w.symtab (rel, y)) (by
    rw [hcr, hr0]; exact List.mem_map_of_mem (mem_relocsAt.2 ⟨path, hop⟩))
  have hst : startOf m a = offsetOf m a := offsetOf_startOf G.good.clean e hm (.inl rfl)
  have haddr : addr = t.sh.sh_addr + startOf m a := by
    rw [hca] at h1; split at h1
    · exact (Option.some.inj h1).symm
    · cases h1
  have hreg : regionOf w'.symtab (scannedReloc w.symtab (rel, y)) = patchRegion (scannedReloc w.symtab (rel, y)).1 sym := by
    unfold regionOf; rw [h2]
  rw [hreg] at h4
  rw [(scanned_offset _ _).1] at h2
  have hga : addrNamed file b!".got" = g.sh.sh_addr := (sectionNamed_one ng).2.2
  have hpa : addrNamed file b!".plt" = pl.sh.sh_addr := (sectionNamed_one npl).2.2
  rw [hga, hpa]
  refine ⟨t.sh.toSpec, startOf m a, out, sym, hsn, by rw [hoff, hst], h2, ?_, ?_, by rw [hbody]; exact hfit, sh, sr, path, by rw [e]; simp, hop⟩
  · rw [hcd, hd0, haddr] at h3; exact h3
  · intro i hi1 hi2 hi3
    rw [← h4 i hi1 hi2, hbody, ← hsl, slice_getElem?, if_pos hi3]

theorem GoodRun.ref_applied (G : GoodRun opts ops sched w w' file secs) {m : Name} {off : Nat} {rel : Rela} {y : SymbolRef}
    (hr : RefersAt ops m off rel y) (hm : m ≠ []) :
    ∃ o base data out sym, sectionsNamed file m = [o] ∧ off = base + rel.r_offset ∧ w'.symtab.get y = some sym ∧
      applyRelocation (o.addr + base) data (scannedReloc w.symtab (rel, y)).1 sym w'.dynsym (addrNamed file b!".got") (addrNamed file b!".plt") = .ok out ∧
      (∀ i, (patchRegion (scannedReloc w.symtab (rel, y)).1 sym).1 ≤ i →
        i < (patchRegion (scannedReloc w.symtab (rel, y)).1 sym).1 + (patchRegion (scannedReloc w.symtab (rel, y)).1 sym).2 → i < data.length →
        (bodyOf file o)[base + i]? = out[i]?) ∧
      base + data.length ≤ (bodyOf file o).length ∧ ∃ sh sr path, Op.push m sh (some data) sr ∈ ops ∧ Op.reloc rel y sr path ∈ ops := by
  obtain ⟨a, sh, data, sr, b, path, hr⟩ := hr
  obtain ⟨o, base, out, sym, h⟩ := G.ref_applied_in (data := data) ⟨a, sh, sr, b, path, hr⟩ hm
  exact ⟨o, base, data, out, sym, h⟩

theorem slice_congr {a b : Bytes} {oa ob n : Nat} (h : ∀ i, i < n → a[oa + i]? = b[ob + i]?) : slice a oa n = slice b ob n := by
  apply List.ext_getElem?
  intro i
  rw [slice_getElem?, slice_getElem?]
  split
  · next hi => exact h i hi
  · rfl

/-- the quantities of the psABI formulas for a relocation in the output -/
def fileEnv (file : Bytes) (o : EShdr) (off : Nat) (rel : Rela) (sym : Symbol) (S : Nat) : RelEnv where
  S := S
  A := rel.r_addend
  P := (o.addr + off : Nat)
  GOT := addrNamed file b!".got"
  G := sym.inGot.map fun g : Nat => (g : Int)
  L := sym.inPlt.map fun i : Nat => ((addrNamed file b!".plt" + 16 * (i + 1) : Nat) : Int)

/-- **The value of a field in the output.** -/
theorem GoodRun.ref_value (G : GoodRun opts ops sched w w' file secs) {m : Name} {off : Nat} {rel : Rela} {y : SymbolRef}
    (hr : RefersAt ops m off rel y) (hm : m ≠ []) {ty : Nat} (hty : relType (scannedReloc w.symtab (rel, y)).1 = ty) (hmem : ty ∈ fieldTypes)
    (hrelax : ty = 41 ∨ ty = 42 → ∀ s, w'.symtab.get y = some s → s.dynamic ≠ none) :
    ∃ o sym S k v, sectionsNamed file m = [o] ∧ w'.symtab.get y = some sym ∧ symAddr sym w'.dynsym = some S ∧
      psabi (fileEnv file o off rel sym S) ty = some (k, v) ∧
      ((ty = 11 → fitsSigned 4 v) → fieldOf file o off k = v) := by
  obtain ⟨o, base, data, out, sym, ho, hoff, hs, happ, hb, _⟩ := G.ref_applied hr hm
  obtain ⟨S, k, v, hS, hps, hin, hval⟩ := C29_psabi_value happ (by rw [← hty] at hmem; exact hmem) (by
    intro h; exact hrelax (by rw [← hty]; exact h) sym hs)
  obtain ⟨e1, e2, e3⟩ := scanned_offset w.symtab (rel, y)
  simp only at e1 e2 e3
  change psabi _ (relType (scannedReloc w.symtab (rel, y)).1) = _ at hps
  rw [hty] at hps
  refine ⟨o, sym, S, k, v, ho, hs, hS, ?_, ?_⟩
  · rw [← hps]
    unfold relEnv fileEnv
    rw [e2, e3, hoff]
    simp only [Nat.add_assoc]
  · intro h11
    have hk : (patchRegion (scannedReloc w.symtab (rel, y)).1 sym).1 = rel.r_offset ∧ k = (patchRegion (scannedReloc w.symtab (rel, y)).1 sym).2 := by
      unfold patchRegion
      have e0 : r_type (scannedReloc w.symtab (rel, y)).1.r_info = ty := hty
      have hd : ty = 41 ∨ ty = 42 → sym.dynamic ≠ none := fun h => hrelax h sym hs
      simp only [e0, e2]
      simp only [fieldTypes, List.mem_cons, List.not_mem_nil, or_false] at hmem
      clear hval hb happ hin hty e0 hrelax
      rcases hmem with rfl | rfl | rfl | rfl | rfl | rfl | rfl | rfl | rfl <;>
        simp only [psabi, fileEnv, Option.map_eq_some_iff, Option.some.injEq, Prod.mk.injEq] at hps <;>
        simp [R_X86_64_NONE, R_X86_64_64, R_X86_64_GOTPCRELX, R_X86_64_REX_GOTPCRELX] at hd ⊢ <;>
        first
        | exact hps.1.symm
        | (obtain ⟨_, _, h, _⟩ := hps; first | exact h.symm | exact (by rw [if_neg hd]; exact ⟨rfl, h.symm⟩))
    have hv := hval (fun h => h11 (by rw [← hty]; exact h))
    rw [← hv]
    unfold fieldOf sfield field
    rw [e2, slice_congr (a := bodyOf file o) (b := out) (oa := off) (ob := rel.r_offset)]
    intro i hi
    rw [hoff, Nat.add_assoc]
    rw [e2] at hin
    exact hb _ (by omega) (by omega) (by omega)

/-- what the objects call imported is what the symbol table calls imported -/
theorem GoodLink.imported_iff (h : GoodLink opts ops sched w w' file secs) {y : SymbolRef} {n : Name} (hy : Refers ops y n) :
    Imported w.symtab y ↔ ImportedIn ops n := by
  obtain ⟨ns, nd, T⟩ := h.run.hist.tableFacts
  obtain ⟨hk, hn⟩ := h.refers T hy
  constructor
  · intro hi
    obtain ⟨n', hn', hk', hin, _⟩ := h.imported_name T hi
    have := u32_nameOff_inj T.symstr h.symstr hn' hn (SymbolRef.named.inj (hk'.symm.trans hk))
    rw [← this]; exact hin
  · intro hi; rw [hk]; exact h.imported_of T hi

/-- whether a symbol is imported does not change in the end -/
theorem GoodRun.dynamic_iff (G : GoodRun opts ops sched w w' file secs) {y : SymbolRef} {s : Symbol} (hs : w'.symtab.get y = some s) :
    s.dynamic ≠ none ↔ Imported w.symtab y := by
  obtain ⟨st, hst⟩ := G.run.stages
  subst hst
  obtain ⟨s1, _, hs1, _, _, _, _, _, _, _, _, hd, _⟩ := st.final_slots G.run.valid G.run.hist hs
  obtain ⟨s0, h0, h2⟩ := SymbolTable.view_get_some (scan_view (F := fun s : Symbol => s.dynamic) (fun _ _ _ _ => ⟨rfl, rfl⟩) st.hscan) hs1
  rw [hd, h2]
  constructor
  · intro h; exact ⟨s0, h0, by simpa [Option.isSome_iff_ne_none] using h⟩
  · rintro ⟨s', hs', h'⟩
    rw [h0] at hs'; cases hs'
    simpa [Option.isSome_iff_ne_none] using h'

/-- the symbols of the objects are still there in the end -/
theorem GoodRun.get_final (G : GoodRun opts ops sched w w' file secs) {y : SymbolRef} {s : Symbol} (hs : w.symtab.get y = some s) :
    ∃ s', w'.symtab.get y = some s' := by
  obtain ⟨st, hst⟩ := G.run.stages
  subst hst
  obtain ⟨s1, h1, _⟩ := SymbolTable.view_get_some (scan_view (F := fun s : Symbol => s.dynamic) (fun _ _ _ _ => ⟨rfl, rfl⟩) st.hscan).symm hs
  obtain ⟨s2, h2, _⟩ := SymbolTable.view_get_some (st.linkRels G.run.valid G.run.hist).tab.symm h1
  obtain ⟨s3, h3, _⟩ := SymbolTable.view_get_some st.final_unplace.1.symm h2
  exact ⟨s3, h3⟩

theorem GoodLink.refers_final (h : GoodLink opts ops sched w w' file secs) {y : SymbolRef} {n : Name} (hy : Refers ops y n) :
    ∃ s', w'.symtab.get y = some s' := by
  obtain ⟨ns, nd, T⟩ := h.run.hist.tableFacts
  obtain ⟨s, sec, path, hop, _⟩ := hy
  obtain ⟨x, hx⟩ := Option.isSome_iff_exists.1 (T.inv.sref _ _ _ _ _ hop).1
  exact h.toGoodRun.get_final hx

theorem GoodLink.refers_inj (h : GoodLink opts ops sched w w' file secs) {y : SymbolRef} {n n' : Name} (hy : Refers ops y n) (hy' : Refers ops y n') : n = n' := by
  obtain ⟨ns, nd, T⟩ := h.run.hist.tableFacts
  obtain ⟨hk, hn⟩ := h.refers T hy
  obtain ⟨hk', hn'⟩ := h.refers T hy'
  exact u32_nameOff_inj T.symstr h.symstr hn hn' (SymbolRef.named.inj (hk.symm.trans hk'))

/-- direct references reach the value of their symbol -/
theorem GoodRun.reaches (G : GoodRun opts ops sched w w' file secs) {m : Name} {off : Nat} {rel : Rela} {y : SymbolRef}
    (hr : RefersAt ops m off rel y) (hm : m ≠ []) (h4 : relType rel = 4 → ¬ Imported w.symtab y) :
    ∃ o sym, sectionsNamed file m = [o] ∧ w'.symtab.get y = some sym ∧ ∀ S, symAddr sym w'.dynsym = some S → Reaches file o off rel S := by
  obtain ⟨o, _, _, _, sym, ho, _, hs, _⟩ := G.ref_applied hr hm
  have key : ∀ ty, relType (scannedReloc w.symtab (rel, y)).1 = ty → ty ∈ [1, 2, 10, 11] → ∀ S, symAddr sym w'.dynsym = some S →
      ∃ k v, psabi (fileEnv file o off rel sym S) ty = some (k, v) ∧
        ((ty = 11 → fitsSigned 4 v) → fieldOf file o off k = v) := by
    intro ty hty hmem S hS
    obtain ⟨o', sym', S', k, v, ho', hs', hS', hps, hv⟩ := G.ref_value hr hm hty (by
      simp only [List.mem_cons, List.not_mem_nil, or_false] at hmem
      rcases hmem with rfl | rfl | rfl | rfl <;> decide) (by
      intro h
      simp only [List.mem_cons, List.not_mem_nil, or_false] at hmem
      omega)
    rw [ho] at ho'; cases ho'
    rw [hs] at hs'; cases hs'
    rw [hS] at hS'; cases hS'
    exact ⟨k, v, hps, hv⟩
  have hty := scanned_type w.symtab (rel, y)
  simp only at hty
  refine ⟨o, sym, ho, hs, fun S hS => ⟨fun h => ?_, fun h => ?_, fun h hf => ?_, fun h => ?_⟩⟩
  · rw [if_neg (by omega), h] at hty
    obtain ⟨k, v, h1, h2⟩ := key 1 hty (by simp) S hS
    simp only [psabi, fileEnv, Option.some.injEq, Prod.mk.injEq] at h1
    obtain ⟨rfl, rfl⟩ := h1
    exact h2 (by omega)
  · rw [if_neg (by omega), h] at hty
    obtain ⟨k, v, h1, h2⟩ := key 10 hty (by simp) S hS
    simp only [psabi, fileEnv, Option.some.injEq, Prod.mk.injEq] at h1
    obtain ⟨rfl, rfl⟩ := h1
    exact h2 (by omega)
  · rw [if_neg (by omega), h] at hty
    obtain ⟨k, v, h1, h2⟩ := key 11 hty (by simp) S hS
    simp only [psabi, fileEnv, Option.some.injEq, Prod.mk.injEq] at h1
    obtain ⟨rfl, rfl⟩ := h1
    exact h2 (fun _ => hf)
  · have h2 : relType (scannedReloc w.symtab (rel, y)).1 = 2 := by
      rw [hty]; rcases h with h | h
      · rw [if_neg (by omega), h]
      · rw [if_pos ⟨h, h4 h⟩]
    obtain ⟨k, v, h1, h2⟩ := key 2 h2 (by simp) S hS
    simp only [psabi, fileEnv, Option.some.injEq, Prod.mk.injEq] at h1
    obtain ⟨rfl, rfl⟩ := h1
    exact h2 (by omega)

/-- **C88.** Every direct reference of an object to a symbol that no shared library provides, merged into whichever output section, leads in the output
to the value that the symbol table of the output gives that symbol. -/
theorem C88_direct (h : GoodLink opts ops sched w w' file secs) {m n : Name} {off : Nat} {rel : Rela} {y : SymbolRef}
    (hr : RefersAt ops m off rel y) (hm : m ≠ []) (hy : Refers ops y n) (hi : ¬ ImportedIn ops n) :
    ∃ o v, sectionsNamed file m = [o] ∧ symbolsNamed file n = [v] ∧ Reaches file o off rel v.value := by
  have hni : ¬ Imported w.symtab y := fun hh => hi ((h.imported_iff hy).1 hh)
  obtain ⟨o, sym, ho, hs, hS⟩ := h.toGoodRun.reaches hr hm (fun _ => hni)
  obtain ⟨ns, nd, T⟩ := h.run.hist.tableFacts
  obtain ⟨hk, hns⟩ := h.refers T hy
  refine ⟨o, sym.sym.toSpec, ho, h.symbol_named T hns (by rw [← hk]; exact hs), hS _ ?_⟩
  unfold symAddr
  rw [if_neg]
  · rfl
  · rintro ⟨_, hd⟩; exact hni ((h.toGoodRun.dynamic_iff hs).1 hd)

/-- **C88, to the definition.** If in addition one definition in the section `m'` of an object decides what the symbol means, the reference leads to the
place of that definition in the output section `m'`. -/
theorem C88_to_definition (h : GoodLink opts ops sched w w' file secs) {m m' n : Name} {off : Nat} {rel : Rela} {y r : SymbolRef} {s : Sym} {sr : SectionRef}
    {path : Path} {sh : SectionHeader} {d : Option Bytes}
    (hr : RefersAt ops m off rel y) (hm : m ≠ []) (hy : Refers ops y n) (hi : ¬ ImportedIn ops n)
    (e : ops = a ++ Op.sym s (some sr) n path r :: b) (hn : n ≠ []) (hl : n ∉ linkerSymbols) (hd : Decides a s sr n b)
    (e' : ops = a' ++ Op.push m' sh d sr :: b') (hm' : m' ≠ []) (hz : d.isSome ∨ pushesOf m' a' = []) :
    ∃ o o', sectionsNamed file m = [o] ∧ sectionsNamed file m' = [o'] ∧ Reaches file o off rel (o'.addr + offsetOf m' a' + s.st_value) := by
  obtain ⟨o, v, ho, hv, hR⟩ := C88_direct h hr hm hy hi
  obtain ⟨o', v', ho', hv', hval, _⟩ := C53_partial h e hn hl hd e' hm' hz
  rw [hv] at hv'; cases hv'
  rw [hval] at hR
  exact ⟨o, o', ho, ho', hR⟩

/-- a section symbol is referred to by its own reference -/
theorem Hist.section_unique (h : Hist opts ops w) {s s' : Sym} {sec sec' : Option SectionRef} {n n' : Name} {path path' : Path} {k i : Nat}
    (hm : Op.sym s sec n path (.section k i) ∈ ops) (hm' : Op.sym s' sec' n' path' (.section k i) ∈ ops) : s = s' ∧ sec = sec' := by
  induction h with
  | init => cases hm
  | @step ops op w w' h hstep ih =>
    have key : ∀ s sec n path, op = Op.sym s sec n path (.section k i) → w.symtab.get (.section k i) = none := by
      rintro s sec n path rfl
      cases hstep with
      | sym hstep =>
        simp only [Writer.addSymbol] at hstep
        split at hstep
        · cases hstep
        · next symtab r' ha =>
          simp only [bind_ok] at hstep
          obtain ⟨_, _, h2⟩ := hstep
          cases h2
          unfold SymbolTable.addSymbol at ha
          simp only at ha
          split at ha
          · cases ha
            unfold SymbolTable.get
            simp only
            cases AMap.get? w.symtab.sectionSyms s.st_shndx <;> simp
          · split at ha
            · split at ha <;> cases ha
            · cases ha
    have old : ∀ {s sec n path}, Op.sym s sec n path (.section k i) ∈ ops → w.symtab.get (.section k i) ≠ none := by
      intro s sec n path hop
      obtain ⟨ns, nd, T⟩ := h.tableFacts
      have := (T.inv.sref _ _ _ _ _ hop).1
      simpa [Option.isSome_iff_ne_none] using this
    rcases List.mem_append.1 hm with hm | hm <;> rcases List.mem_append.1 hm' with hm' | hm'
    · exact ih hm hm'
    · exact absurd (key _ _ _ _ (List.mem_singleton.1 hm').symm) (old hm)
    · exact absurd (key _ _ _ _ (List.mem_singleton.1 hm).symm) (old hm')
    · rw [List.mem_singleton] at hm hm'
      rw [← hm] at hm'
      cases hm'
      exact ⟨rfl, rfl⟩

/-- **C89.** Every direct reference of an object to one of its sections, by a section symbol, leads in the output to the place where that section
was merged. -/
theorem C89_section (G : GoodRun opts ops sched w w' file secs) {m m' n : Name} {off : Nat} {rel : Rela} {y : SymbolRef} {s : Sym} {sr : SectionRef}
    {path : Path} {sh : SectionHeader} {d : Option Bytes}
    (hr : RefersAt ops m off rel y) (hm : m ≠ []) (hs : Op.sym s (some sr) n path y ∈ ops) (h3 : s.st_info % 16 = 3) (habs : s.st_shndx ≠ 0xfff1)
    (e' : ops = a' ++ Op.push m' sh d sr :: b') (hm' : m' ≠ []) (hz : d.isSome ∨ pushesOf m' a' = []) :
    ∃ o o', sectionsNamed file m = [o] ∧ sectionsNamed file m' = [o'] ∧ Reaches file o off rel (o'.addr + offsetOf m' a') := by
  obtain ⟨k, i, rfl⟩ := G.run.hist.section_ref hs h3
  obtain ⟨ns, nd, T⟩ := G.run.hist.tableFacts
  have hni : ¬ Imported w.symtab (.section k i) := by
    rintro ⟨x, hx, hd⟩
    obtain ⟨d, hd⟩ := Option.isSome_iff_exists.1 hd
    obtain ⟨n, _, hk, _⟩ := T.inv.link _ _ _ hx hd
    cases hk
  obtain ⟨o, sym, ho, hsym, hS⟩ := G.reaches hr hm (fun _ => hni)
  have hN : ∀ nm, NotNamed w.symstr (.section k i) nm := fun _ _ _ h => by cases h
  obtain ⟨j, t, _, _, hsn, hv⟩ := G.placed_symbol (r := .section k i) (by constructor <;> first | exact hN _ | (constructor <;> exact hN _)) e' hm'
    (mem_notesAt.2 ⟨s, n, path, hs, habs⟩) (by
      intro sr' hin _
      obtain ⟨s', n', path', hop', _⟩ := mem_notesAt.1 hin
      exact Option.some.inj (G.run.hist.section_unique hs hop').2.symm)
  refine ⟨o, t.sh.toSpec, ho, hsn, hS _ ?_⟩
  rw [hsym] at hv
  obtain ⟨x, hx, hv⟩ := Option.map_eq_some_iff.1 hv.symm
  unfold symAddr
  rw [if_neg]
  · have hv : placeAt (.section k i) _ _ x.sym = sym.sym := hv
    rw [← hv, offsetOf_startOf G.good.clean e' hm' hz]
    rfl
  · rintro ⟨_, hd⟩; exact hni ((G.dynamic_iff hsym).1 hd)

/-- **C90.** Every call through the PLT of a function that a shared library provides leads in the output to an entry of `.plt` that is a lazily bound
call of that function. -/
theorem C90_call (h : GoodLink opts ops sched w w' file secs) {m n : Name} {off : Nat} {rel : Rela} {y : SymbolRef}
    (hr : RefersAt ops m off rel y) (hm : m ≠ []) (hy : Refers ops y n) (hi : ImportedIn ops n) (h4 : relType rel = 4) :
    ∃ o i j k, sectionsNamed file m = [o] ∧ PltSlot file i j k n ∧
      fieldOf file o off 4 = (addrNamed file b!".plt" + 16 * (i + 1) : Nat) + rel.r_addend - (o.addr + off : Nat) := by
  have hI := (h.imported_iff hy).2 hi
  have hty : relType (scannedReloc w.symtab (rel, y)).1 = 4 := by
    rw [scanned_type, if_neg (fun hh => hh.2 hI)]; exact h4
  obtain ⟨o, sym, S, k', v, ho, hs, hS, hps, hv⟩ := h.toGoodRun.ref_value hr hm hty (by decide) (by omega)
  obtain ⟨names, _, hmem, _, _, _, _, _, hslot⟩ := plt_in_file h
  obtain ⟨_, _, _, sr, _, path, _, hop, _, _⟩ := hr
  obtain ⟨i, hin⟩ := List.getElem?_of_mem ((hmem n).2 ⟨hi, y, rel, sr, path, hy, hop, h4⟩)
  obtain ⟨⟨j, k, hP⟩, hall⟩ := hslot i n hin
  refine ⟨o, i, j, k, ho, hP, ?_⟩
  simp only [psabi, fileEnv, hall y sym hy hs, Option.map_some, Option.some.injEq, Prod.mk.injEq] at hps
  obtain ⟨rfl, rfl⟩ := hps
  exact hv (by omega)

theorem eq_of_fst_nodup {α β : Type} {l : List (α × β)} (h : (l.map (·.1)).Nodup) {e e' : α × β} (he : e ∈ l) (he' : e' ∈ l) (hk : e.1 = e'.1) : e = e' := by
  induction l with
  | nil => cases he
  | cons x l ih =>
    rw [List.map_cons, List.nodup_cons] at h
    rcases List.mem_cons.1 he with h1 | h1 <;> rcases List.mem_cons.1 he' with h2 | h2
    · rw [h1, h2]
    · refine absurd ?_ h.1; rw [← h1, hk]; exact List.mem_map_of_mem h2
    · refine absurd ?_ h.1; rw [← h2, ← hk]; exact List.mem_map_of_mem h1
    · exact ih h.2 h1 h2

/-- **C91.** Every load through the GOT (`GOTPCRELX`, `REX_GOTPCRELX`) of the address of a symbol that a shared library provides leads in the output to a
word of `.got` that one `GLOB_DAT` relocation fills with the address of that symbol. -/
theorem C91_got_load (h : GoodLink opts ops sched w w' file secs) {m n : Name} {off : Nat} {rel : Rela} {y : SymbolRef}
    (hr : RefersAt ops m off rel y) (hm : m ≠ []) (hy : Refers ops y n) (hi : ImportedIn ops n) (h4 : relType rel = 41 ∨ relType rel = 42) :
    ∃ o g k, sectionsNamed file m = [o] ∧ g + 8 ≤ (bodyNamed file b!".got").length ∧ dynName file k = some n ∧
      (relasOf (bodyNamed file b!".rela.dyn")).filter (fun r => r.type == 6 && r.offset == addrNamed file b!".got" + g) =
        [⟨addrNamed file b!".got" + g, k, 6, 0⟩] ∧
      fieldOf file o off 4 = (addrNamed file b!".got" + g : Nat) + rel.r_addend - (o.addr + off : Nat) := by
  have hI := (h.imported_iff hy).2 hi
  have hty : relType (scannedReloc w.symtab (rel, y)).1 = relType rel := by
    rw [scanned_type, if_neg (fun hh => hh.2 hI)]
  obtain ⟨o, sym, S, k', v, ho, hs, hS, hps, hv⟩ := h.toGoodRun.ref_value hr hm hty (by rcases h4 with h4 | h4 <;> rw [h4] <;> decide)
    (fun _ s hs => (h.toGoodRun.dynamic_iff hs).2 hI)
  obtain ⟨globs, hf, hnd, hmem, hslot⟩ := glob_dat_in_file h
  obtain ⟨_, _, _, sr, _, path, _, hop, _, _⟩ := hr
  have hu : UsesGot rel := by unfold UsesGot; rcases h4 with h4 | h4 <;> rw [h4] <;> decide
  obtain ⟨⟨n', g, k⟩, hin, hn'⟩ := List.mem_map.1 ((hmem n).2 ⟨hi, y, rel, sr, path, hy, hop, hu⟩)
  simp only at hn'
  subst hn'
  obtain ⟨hdn, hall⟩ := hslot _ _ _ hin
  have hg := hall y sym hy hs
  refine ⟨o, g, k, ho, ?_, hdn, ?_, ?_⟩
  · exact ((got_slots_distinct h.toGoodRun hs).2 g hg).2.2.1
  · have hone : ∀ e ∈ globs, e.2.1 = g → e = (n', g, k) := by
      rintro ⟨n2, g2, k2⟩ he hg2
      simp only at hg2
      subst hg2
      obtain ⟨_, y2, _, _, _, hy2, _⟩ := (hmem n2).1 (List.mem_map_of_mem (f := (·.1)) he)
      obtain ⟨sym2, hs2⟩ := h.refers_final hy2
      have hg2 := (hslot _ _ _ he).2 y2 sym2 hy2 hs2
      have hyy : y2 = y := Classical.byContradiction fun hne => by
        have := ((got_slots_distinct h.toGoodRun hs).2 _ hg).2.2.2 y2 sym2 _ hs2 hg2 hne
        omega
      subst hyy
      have hnn := h.refers_inj hy2 hy
      subst hnn
      exact eq_of_fst_nodup hnd he hin rfl
    have hsplit : (relasOf (bodyNamed file b!".rela.dyn")).filter (fun r => r.type == 6 && r.offset == addrNamed file b!".got" + g) =
        ((relasOf (bodyNamed file b!".rela.dyn")).filter (fun r => r.type == 6)).filter (fun r => r.offset == addrNamed file b!".got" + g) := by
      rw [List.filter_filter]
      apply List.filter_congr
      intro x _
      rw [Bool.and_comm]
    rw [hsplit, hf, List.filter_map, filter_one (f := (·.1)) hnd hin]
    · rfl
    · intro x hx
      simp only [Function.comp_apply, beq_iff_eq, Nat.add_left_cancel_iff]
      constructor
      · intro hxg; rw [hone x hx hxg]
      · intro hx1
        rw [eq_of_fst_nodup hnd hx hin hx1]
  · rcases h4 with h4 | h4 <;> rw [h4] at hps hv <;>
      simp only [psabi, fileEnv, hg, Option.map_some, Option.some.injEq, Prod.mk.injEq] at hps <;>
      obtain ⟨rfl, rfl⟩ := hps <;> rw [hv (by omega)] <;> omega

/-- the entries of the dynamic symbol table have names without zero bytes -/
theorem GoodLink.dyn_final_name (h : GoodLink opts ops sched w w' file secs) {ns nd : List Name} (T : TableFacts ns nd ops w) {k : Nat} {y : Symbol}
    (hy : w'.dynsym.get (.named k) = some y) : y.sym.st_name = k ∧ ∃ n ∈ nd, k = u32 (nameOff nd n) ∧ (0 : UInt8) ∉ n := by
  obtain ⟨st, rfl⟩ := h.run.stages
  obtain ⟨x, hx, e⟩ := SymbolTable.view_get_some (st.final_unplace.2.trans (st.linkRels h.run.valid h.run.hist).dyn) hy
  obtain ⟨n, _, _, hk, _⟩ := T.dynNamed k x hx
  refine ⟨(congrArg (·.sym.st_name) e).trans hk, ?_⟩
  rcases T.dynMention k x hx with rfl | ⟨e', n, path, hop, h3⟩
  · refine ⟨[], ?_, ?_, by simp⟩
    · have := T.dynstr.head; exact List.mem_of_mem_head? this
    · rw [nameOff_nil T.dynstr.head]; rfl
  · exact ⟨n, T.dynMem n (mem_dynNames hop), SymbolRef.named.inj ((T.inv.dref _ _ _ _ hop).2 h3), h.symNames.dyn _ _ _ _ hop⟩

/-- a name has at most one entry in the dynamic symbol table of the file -/
theorem GoodLink.dynName_inj (h : GoodLink opts ops sched w w' file secs) {i j : Nat} {n : Name} (hi : dynName file i = some n)
    (hj : dynName file j = some n) : i = j := by
  obtain ⟨ns, nd, T⟩ := h.run.hist.tableFacts
  obtain ⟨a, b, c, d, e, f, X⟩ := h.tables
  obtain ⟨_, b1, _⟩ := sectionNamed_one X.mdynsym.2.2
  obtain ⟨_, d1, _⟩ := sectionNamed_one X.mdynstr.2.2
  have hkeys : (AMap.keys w'.dynsym.symbols).Nodup := by
    obtain ⟨st, rfl⟩ := h.run.stages
    rw [SymbolTable.view_keys (st.final_unplace.2.trans (st.linkRels h.run.valid h.run.hist).dyn)]
    exact T.dynNodup
  have hnd := SymbolTable.sorted_keys (fun k s hs => (h.dyn_final_name T (k := k) (y := s) hs).1) hkeys h.run.valid.dynIter
  have key : ∀ {i}, dynName file i = some n → ∃ x, (w'.dynsym.sorted sched.dynIter)[i]? = some x ∧ n ∈ nd ∧ x.sym.st_name = u32 (nameOff nd n) := by
    intro i hi
    unfold dynName at hi
    rw [b1, X.dyns, List.getElem?_map, d1, X.dynstrs, Option.bind_eq_some_iff] at hi
    obtain ⟨s, hs, hc⟩ := hi
    obtain ⟨x, hx, rfl⟩ := Option.map_eq_some_iff.1 hs
    obtain ⟨k, hk⟩ := (SymbolTable.mem_sorted h.run.valid.dynIter).1 (List.mem_of_getElem? hx)
    obtain ⟨e1, m, hm, e2, hz⟩ := h.dyn_final_name T hk
    have hc' : cstrAt w.dynstr.chunk x.sym.st_name = some n := hc
    rw [e1, e2, u32_nameOff T.dynstr h.dynstr hm, Holds.cstr T.dynstr hm hz] at hc'
    cases hc'
    exact ⟨x, hx, hm, by rw [e1, e2]⟩
  obtain ⟨x, hx, _, ex⟩ := key hi
  obtain ⟨y, hy, _, ey⟩ := key hj
  have h1 : ((w'.dynsym.sorted sched.dynIter).map (·.sym.st_name))[i]? = ((w'.dynsym.sorted sched.dynIter).map (·.sym.st_name))[j]? := by
    rw [List.getElem?_map, List.getElem?_map, hx, hy]; simp [ex, ey]
  refine (List.getElem?_inj ?_ hnd).1 h1
  rw [List.length_map]; exact (List.getElem?_eq_some_iff.1 hx).1

/-- **C92, what holds.** Every direct reference of an object to a data object of a shared library, which the objects leave undefined, leads in the output
to the copy of that object: the place for which there is a `COPY` relocation naming it. What is missing: symbols that are not data objects
(`C92_direct_import_violated`). -/
theorem C92_copied_partial (h : GoodLink opts ops sched w w' file secs) {m n : Name} {off : Nat} {rel : Rela} {y : SymbolRef}
    (hr : RefersAt ops m off rel y) (hm : m ≠ []) (hy : Refers ops y n) (hi : ImportedIn ops n) (hne : relType rel ≠ 4)
    {v : ESym} (hv : symbolsNamed file n = [v]) (hu : v.shndx = 0) {k : Nat} {e : ESym}
    (hk : (symsOf (bodyNamed file b!".dynsym"))[k]? = some e) (hkn : dynName file k = some n) (he : e.info % 16 = 1) :
    ∃ o c k' e', sectionsNamed file m = [o] ∧ (symsOf (bodyNamed file b!".dynsym"))[k']? = some e' ∧ dynName file k' = some n ∧
      e'.value = addrNamed file b!".copyrel" + c ∧ ⟨e'.value, k', 5, 0⟩ ∈ relasOf (bodyNamed file b!".rela.dyn") ∧ Reaches file o off rel e'.value := by
  obtain ⟨o, sym, ho, hs, hS⟩ := h.toGoodRun.reaches hr hm (fun h4 => absurd h4 hne)
  obtain ⟨st, hst⟩ := h.run.stages
  obtain ⟨ns, nd, T⟩ := h.run.hist.tableFacts
  obtain ⟨hyk, hns⟩ := h.refers T hy
  have hsym := h.symbol_named T hns (by rw [← hyk]; exact hs)
  rw [hv] at hsym
  have hsh : sym.sym.st_shndx = 0 := by
    have : v = sym.sym.toSpec := by simpa using hsym
    rw [this] at hu; exact hu
  obtain ⟨mm, hmm, F⟩ := h.import_of st T hi
  obtain ⟨d, hd, hdyn, hdn⟩ := F.entry h.run.valid h.run.hist T
  rw [hst] at hd hdyn
  have hdy : sym.dynamic = some mm.ref := by
    obtain ⟨s0, h0, hd0⟩ := F.sym
    subst hst
    obtain ⟨s1, _, hs1, _, _, _, _, _, _, _, _, hd1, _⟩ := st.final_slots h.run.valid h.run.hist hs
    obtain ⟨s0', h0', h2⟩ := SymbolTable.view_get_some (scan_view (F := fun s : Symbol => s.dynamic) (fun _ _ _ _ => ⟨rfl, rfl⟩) st.hscan) hs1
    rw [F.key, ← hyk, h0'] at h0
    cases h0
    rw [hd1, h2, hd0]
  have hS := hS d.sym.st_value (by
    unfold symAddr
    rw [if_pos ⟨by simp [Symbol.isUndefined, hsh, SHN_UNDEF], by rw [hdy]; simp⟩, hdy]
    simp [hdyn])
  obtain ⟨x1, x2, x3, x4, x5, x6, X⟩ := h.tables
  obtain ⟨_, b1, _⟩ := sectionNamed_one X.mdynsym.2.2
  obtain ⟨op, path, hoff⟩ := F.offer
  have hname := h.dynName_of T hd F.memD (h.symNames.dyn _ _ _ _ hoff) hdn
  have hent : (symsOf (bodyNamed file b!".dynsym"))[mm.index]? = some d.sym.toSpec := by rw [b1, X.dyns, List.getElem?_map, hd]; rfl
  obtain ⟨copies, hf, hnd, hmem, _, hall⟩ := copies_in_file h
  obtain ⟨⟨n', c, k', e'⟩, hin, hn'⟩ := List.mem_map.1 ((hmem n).2 ⟨hi, k, e, hk, hkn, he⟩)
  simp only at hn'
  subst hn'
  obtain ⟨c1, c2, c3, _⟩ := hall _ _ _ _ hin
  have hkk : (symsOf (bodyNamed file b!".dynsym"))[k']? = (symsOf (bodyNamed file b!".dynsym"))[mm.index]? := by
    rw [h.dynName_inj c2 hname]
  have hee : e' = d.sym.toSpec := by rw [c1, hent] at hkk; exact Option.some.inj hkk
  refine ⟨o, c, k', e', ho, c1, c2, c3, ?_, ?_⟩
  · have : (⟨addrNamed file b!".copyrel" + c, k', 5, 0⟩ : ERela) ∈ (relasOf (bodyNamed file b!".rela.dyn")).filter (fun r => r.type == 5) := by
      rw [hf]; exact List.mem_map.2 ⟨_, hin, rfl⟩
    rw [c3]; exact (List.mem_filter.1 this).1
  · rw [hee]; exact hS

theorem decodeInstr_congr {img img' : Bytes} {off off' : Nat} (h : ∀ i, i < 7 → img[off + i]? = img'[off' + i]?) (hl : off + 7 ≤ img.length)
    (hl' : off' + 7 ≤ img'.length) (addr : Int) : decodeInstr img off addr = decodeInstr img' off' addr := by
  have hf : ∀ i k, i + k ≤ 7 → field img (off + i) k = field img' (off' + i) k := by
    intro i k hk
    unfold field
    rw [slice_congr (a := img) (b := img') (oa := off + i) (ob := off' + i)]
    intro j hj
    rw [Nat.add_assoc, Nat.add_assoc]; exact h _ (by omega)
  have hs : ∀ i k, i + k ≤ 7 → sfield img (off + i) k = sfield img' (off' + i) k := by
    intro i k hk; unfold sfield; rw [hf i k hk]
  unfold decodeInstr
  simp only [hf 0 1 (by omega), hf 1 1 (by omega), hf 2 1 (by omega), hs 1 4 (by omega), hs 2 4 (by omega), hs 3 4 (by omega)]
  rw [if_neg (by omega : ¬ img.length < off + 1), if_neg (by omega : ¬ img'.length < off' + 1), if_neg (by omega : ¬ img.length < off + 5),
    if_neg (by omega : ¬ img'.length < off' + 5)]
  simp only [if_neg (by omega : ¬ img.length < off + 7), if_neg (by omega : ¬ img'.length < off' + 7), if_neg (by omega : ¬ img.length < off + 6),
    if_neg (by omega : ¬ img'.length < off' + 6)]

theorem decodeInstr_len {img : Bytes} {off : Nat} {addr : Int} {i : Instr} {k : Nat} (h : decodeInstr img off addr = some (i, k)) : off + k ≤ img.length := by
  unfold decodeInstr at h
  simp only at h
  repeat' split at h
  all_goals (cases h <;> omega)

theorem GoodLink.relaxed_in (h : GoodLink opts ops sched w w' file secs) {m n : Name} {off : Nat} {rel : Rela} {y : SymbolRef} {data : Bytes}
    (hr : RefersIn ops m off rel y data) (hm : m ≠ []) (hy : Refers ops y n) (hi : ¬ ImportedIn ops n) (h42 : relType rel = 42) :
    ∃ o v reg slot sh sr path, sectionsNamed file m = [o] ∧ symbolsNamed file n = [v] ∧ 3 ≤ rel.r_offset ∧
      Op.push m sh (some data) sr ∈ ops ∧ Op.reloc rel y sr path ∈ ops ∧
      decodeInstr data (rel.r_offset - 3) ((o.addr + off : Nat) - 3) = some (.load reg slot, 7) ∧
      decodeInstr (bodyOf file o) (off - 3) ((o.addr + off : Nat) - 3) = some (.lea reg (v.value + rel.r_addend + 4), 7) := by
  have hni : ¬ Imported w.symtab y := fun hh => hi ((h.imported_iff hy).1 hh)
  obtain ⟨o, base, out, sym, ho, hoff, hs, happ, hb, hlen, sh, sr, path, hp, hop⟩ := h.toGoodRun.ref_applied_in hr hm
  obtain ⟨ns, nd, T⟩ := h.run.hist.tableFacts
  obtain ⟨hk, hns⟩ := h.refers T hy
  have hty : relType (scannedReloc w.symtab (rel, y)).1 = 42 := by rw [scanned_type, if_neg (by simp only; omega)]; exact h42
  have hdyn : sym.dynamic = none := Classical.byContradiction fun hd => hni ((h.toGoodRun.dynamic_iff hs).1 hd)
  obtain ⟨e1, e2, e3⟩ := scanned_offset w.symtab (rel, y)
  simp only at e1 e2 e3
  obtain ⟨h3, S, reg, slot, hS, _, hload, hlea⟩ := C32_load_becomes_lea happ hty hdyn
  rw [e2] at h3 hload hlea
  rw [e3] at hlea
  have hSv : S = sym.sym.st_value := by
    unfold symAddr at hS
    rw [if_neg (by simp [hdyn])] at hS
    exact (Option.some.inj hS).symm
  have haddr : o.addr + base + rel.r_offset = o.addr + off := by omega
  rw [haddr] at hload hlea
  refine ⟨o, sym.sym.toSpec, reg, slot, sh, sr, path, ho, h.symbol_named T hns (by rw [← hk]; exact hs), h3, hp, hop, hload, ?_⟩
  have hdl : rel.r_offset - 3 + 7 ≤ data.length := decodeInstr_len hload
  have hol : rel.r_offset - 3 + 7 ≤ out.length := decodeInstr_len hlea
  have hreg : patchRegion (scannedReloc w.symtab (rel, y)).1 sym = (rel.r_offset - 3, 7) := by
    unfold patchRegion
    have e0 : r_type (scannedReloc w.symtab (rel, y)).1.r_info = 42 := hty
    simp [e0, e2, hdyn, R_X86_64_NONE, R_X86_64_64, R_X86_64_GOTPCRELX, R_X86_64_REX_GOTPCRELX]
  rw [hreg] at hb
  rw [decodeInstr_congr (img' := out) (off' := rel.r_offset - 3) (fun i hi => ?_) (by omega) hol, hlea, hSv]
  · rfl
  · rw [← hb (rel.r_offset - 3 + i) (by simp) (by simp only; omega) (by omega)]
    congr 1; omega

/-- **C93.** Every load of the address of a symbol through the GOT with a REX prefix (`REX_GOTPCRELX`) is, when no shared library provides the symbol,
an instruction in the output that computes the address of that symbol into the same register, with the value the symbol table gives the symbol (the assembler's
addend is -4). -/
theorem C93_relaxed_load (h : GoodLink opts ops sched w w' file secs) {m n : Name} {off : Nat} {rel : Rela} {y : SymbolRef}
    (hr : RefersAt ops m off rel y) (hm : m ≠ []) (hy : Refers ops y n) (hi : ¬ ImportedIn ops n) (h42 : relType rel = 42) :
    ∃ o v reg slot data sh sr path, sectionsNamed file m = [o] ∧ symbolsNamed file n = [v] ∧ 3 ≤ rel.r_offset ∧
      Op.push m sh (some data) sr ∈ ops ∧ Op.reloc rel y sr path ∈ ops ∧
      decodeInstr data (rel.r_offset - 3) ((o.addr + off : Nat) - 3) = some (.load reg slot, 7) ∧
      decodeInstr (bodyOf file o) (off - 3) ((o.addr + off : Nat) - 3) = some (.lea reg (v.value + rel.r_addend + 4), 7) := by
  obtain ⟨a, sh, data, sr, b, path, hr⟩ := hr
  obtain ⟨o, v, reg, slot, h⟩ := h.relaxed_in (data := data) ⟨a, sh, sr, b, path, hr⟩ hm hy hi h42
  exact ⟨o, v, reg, slot, data, h⟩

/-! ### Concrete links -/

/-- Code of two objects in `.text` and pointers in `.data`. The first object defines `f`. The code of the second calls `f` and `puts`, takes the address of
`.data` by its section symbol, and loads the addresses of `f` and `environ` through the GOT; the pointers are to `f` and to `q`. `puts` and
`environ` are in a shared library. -/
def refOps (q : SymbolRef) : List Op :=
  [ .push [] {} (some []) ⟨0, 0⟩,
    .push b!".text" (demoSh SHT_PROGBITS 6 16 16) (some (List.replicate 16 0xcc)) ⟨16, 0⟩,
    .sym (demoSym STT_FUNC 1 8 4) (some ⟨16, 0⟩) b!"f" demoPath (.named 1),
    .push [] {} (some []) ⟨0, 1⟩,
    .push b!".text" (demoSh SHT_PROGBITS 6 40 16) (some (List.replicate 12 0x90 ++ [0x48, 0x8b, 0x05, 0, 0, 0, 0] ++ List.replicate 5 0x90 ++
      [0x48, 0x8b, 0x05, 0, 0, 0, 0] ++ List.replicate 9 0x90)) ⟨16, 1⟩,
    .push b!".data" (demoSh SHT_PROGBITS 3 16 8) (some (List.replicate 16 0)) ⟨17, 0⟩,
    .sym (demoSym STT_FUNC 1 0 12) (some ⟨16, 1⟩) b!"_start" demoPath (.named 3),
    .sym { st_name := 0, st_info := 3, st_other := 0, st_shndx := 2, st_value := 0, st_size := 0 } (some ⟨17, 0⟩) [] demoPath (.section 2 0),
    .sym (demoSym 0 0 0 0) (some ⟨0, 1⟩) b!"f" demoPath (.named 1),
    .sym (demoSym 0 0 0 0) (some ⟨0, 1⟩) b!"puts" demoPath (.named 10),
    .sym (demoSym 0 0 0 0) (some ⟨0, 1⟩) b!"environ" demoPath (.named 15),
    .reloc { r_offset := 1, r_info := 2 ^ 32 + 4, r_addend := -4 } (.named 1) ⟨16, 1⟩ demoPath,
    .reloc { r_offset := 8, r_info := 2 ^ 32 + 2, r_addend := 4 } (.section 2 0) ⟨16, 1⟩ demoPath,
    .reloc { r_offset := 15, r_info := 2 ^ 32 + 42, r_addend := -4 } (.named 1) ⟨16, 1⟩ demoPath,
    .reloc { r_offset := 20, r_info := 2 ^ 32 + 4, r_addend := -4 } (.named 10) ⟨16, 1⟩ demoPath,
    .reloc { r_offset := 27, r_info := 2 ^ 32 + 42, r_addend := -4 } (.named 15) ⟨16, 1⟩ demoPath,
    .reloc { r_offset := 0, r_info := 2 ^ 32 + 1, r_addend := 2 } (.named 1) ⟨17, 0⟩ demoPath,
    .reloc { r_offset := 8, r_info := 2 ^ 32 + 1, r_addend := 0 } q ⟨17, 0⟩ demoPath,
    .dynsym (demoSym STT_FUNC 12 0x1234 10) b!"puts" demoPath (.named 22),
    .dynsym (demoSym STT_OBJECT 13 0x5678 8) b!"environ" demoPath (.named 27),
    .needed b!"libc.so.6" ]

theorem ref_good : ∀ q ∈ [SymbolRef.named 10, .named 15], goodOps (refOps q) = true ∧ cleanSyms (refOps q) = true := by decide +kernel

theorem ref_text (q : SymbolRef) {rel : Rela} {y : SymbolRef} (h : (rel, y) ∈ relocsIn (refOps q) ⟨16, 1⟩) :
    RefersAt (refOps q) b!".text" (16 + rel.r_offset) rel y := by
  have hop : Op.reloc rel y ⟨16, 1⟩ demoPath ∈ refOps q := by
    simp [relocsIn, refOps] at h
    rcases h with ⟨rfl, rfl⟩ | ⟨rfl, rfl⟩ | ⟨rfl, rfl⟩ | ⟨rfl, rfl⟩ | ⟨rfl, rfl⟩ <;> simp [refOps]
  exact ⟨(refOps q).take 4, _, _, ⟨16, 1⟩, (refOps q).drop 5, demoPath, rfl, hop, rfl, by
    show List.Pairwise _ (relocsIn (refOps (.named 10)) ⟨16, 1⟩)
    decide⟩

theorem ref_data (q : SymbolRef) {rel : Rela} {y : SymbolRef} (h : (rel, y) ∈ relocsIn (refOps q) ⟨17, 0⟩) :
    RefersAt (refOps q) b!".data" rel.r_offset rel y := by
  have hop : Op.reloc rel y ⟨17, 0⟩ demoPath ∈ refOps q := by
    simp [relocsIn, refOps] at h
    rcases h with ⟨rfl, rfl⟩ | ⟨rfl, rfl⟩ <;> simp [refOps]
  exact ⟨(refOps q).take 5, _, _, ⟨17, 0⟩, (refOps q).drop 6, demoPath, rfl, hop, (Nat.zero_add _).symm, by
    show List.Pairwise _ [_, _]
    simp [Disjoint, siteOf, relType]⟩

theorem ref_refers (q : SymbolRef) : Refers (refOps q) (.named 1) b!"f" ∧ Refers (refOps q) (.named 10) b!"puts" ∧
    Refers (refOps q) (.named 15) b!"environ" := by
  refine ⟨⟨demoSym 0 0 0 0, some ⟨0, 1⟩, demoPath, by simp [refOps], by decide⟩, ⟨demoSym 0 0 0 0, some ⟨0, 1⟩, demoPath, by simp [refOps], by decide⟩,
    ⟨demoSym 0 0 0 0, some ⟨0, 1⟩, demoPath, by simp [refOps], by decide⟩⟩

theorem ref_imported (q : SymbolRef) : ImportedIn (refOps q) b!"puts" ∧ ImportedIn (refOps q) b!"environ" ∧ ¬ ImportedIn (refOps q) b!"f" := by
  refine ⟨⟨(refOps q).take 18, _, _, _, (refOps q).drop 19, rfl, demoSym 0 0 0 0, some ⟨0, 1⟩, demoPath, .named 10, by simp [refOps]⟩,
    ⟨(refOps q).take 19, _, _, _, (refOps q).drop 20, rfl, demoSym 0 0 0 0, some ⟨0, 1⟩, demoPath, .named 15, by simp [refOps]⟩, ?_⟩
  rintro ⟨a, e, path, d, b, h, _⟩
  have : Op.dynsym e b!"f" path d ∈ refOps q := by rw [h]; simp
  simp [refOps] at this

/-- `C88_direct`, `C88_to_definition`, `C89_section`, `C93_relaxed_load`: the call of `f`, the address of `.data` and the load of the address of `f` -/
example : ∃ w w' f s, GoodLink Options.default (refOps (.named 15)) Sched.id w w' f s ∧
    (match secsNamed w s b!".text", secsNamed w s b!".data" with
      | [o], [o'] => decide (fieldOf f o 17 4 = (o.addr + 0 + 8) - 4 - (o.addr + 17 : Nat) ∧ fieldOf f o 24 4 = (o'.addr + 0) + 4 - (o.addr + 24 : Nat) ∧
          fieldOf f o' 0 8 = (o.addr + 0 + 8) + 2 ∧
          decodeInstr (bodyOf f o) (31 - 3) ((o.addr + 31 : Nat) - 3) = some (.lea 0 ((o.addr + 0 + 8) - 4 + 4), 7))
      | _, _ => false) = true :=
  GoodLink.of_runs Sched.id_valid (ref_good _ (by simp)).1 (ref_good _ (by simp)).2 (by decide +kernel)

/-- the definition of `f` decides what `f` means -/
example : Decides ((refOps q).take 2) (demoSym STT_FUNC 1 8 4) ⟨16, 0⟩ b!"f" ((refOps q).drop 3) := by
  constructor
  · decide
  · decide
  · decide
  · decide
  · rintro s sec ⟨⟨p, r, h⟩, _⟩; simp [refOps] at h
  · rintro s sec ⟨⟨p, r, h⟩, _⟩; simp [refOps] at h; obtain ⟨rfl, _⟩ := h; decide
  · rintro s sec sr ⟨⟨p, r, h⟩, _⟩ hat
    simp [refOps] at h
    obtain ⟨rfl, rfl, _⟩ := h
    obtain ⟨h1, _, h2⟩ := hat
    cases h1
    exact absurd (by simp [refOps]) (h2 {} (some []))

/-- `C90_call`, `C91_got_load`, `C92_copied_partial`: the call of `puts`, the load of the address of `environ` and the pointer to `environ` -/
example : ∃ w w' f s, GoodLink Options.default (refOps (.named 15)) Sched.id w w' f s ∧
    (match secsNamed w s b!".text", secsNamed w s b!".data", secsNamed w s b!".plt", secsNamed w s b!".got", secsNamed w s b!".copyrel" with
      | [o], [o'], [p], [g], [c] => decide (fieldOf f o 36 4 = p.addr + 16 - 4 - (o.addr + 36 : Nat) ∧ fieldOf f o 43 4 = (g.addr + 16) - 4 - (o.addr + 43 : Nat) ∧
          fieldOf f o' 8 8 = c.addr)
      | _, _, _, _, _ => false) = true :=
  GoodLink.of_runs Sched.id_valid (ref_good _ (by simp)).1 (ref_good _ (by simp)).2 (by decide +kernel)

/-- **C92 is violated**: a pointer in `.data` to the function `puts` of a shared library is null in the output, and no relocation for the dynamic loader
applies to it. -/
theorem C92_direct_import_violated : ∃ w w' f s o rel, GoodLink Options.default (refOps (.named 10)) Sched.id w w' f s ∧
    relType rel = 1 ∧ RefersAt (refOps (.named 10)) b!".data" 8 rel (.named 10) ∧ Refers (refOps (.named 10)) (.named 10) b!"puts" ∧
    ImportedIn (refOps (.named 10)) b!"puts" ∧ sectionsNamed f b!".data" = [o] ∧ fieldOf f o 8 8 = 0 ∧
    ∀ n ∈ [b!".rela.dyn", b!".rela.plt"], ∀ r ∈ relasOf (bodyNamed f n), r.offset ≠ o.addr + 8 := by
  obtain ⟨w, w', f, s, h, hp⟩ := GoodLink.of_runs (opts := .default) (ops := refOps (.named 10)) (sched := .id)
    (P := fun w w' f s => match secsNamed w s b!".data", secsNamed w s b!".rela.dyn", secsNamed w s b!".rela.plt" with
      | [o], [d], [p] => decide (fieldOf f o 8 8 = 0 ∧ (∀ r ∈ relasOf (bodyOf f d), r.offset ≠ o.addr + 8) ∧ ∀ r ∈ relasOf (bodyOf f p), r.offset ≠ o.addr + 8)
      | _, _, _ => false) Sched.id_valid (ref_good _ (by simp)).1 (ref_good _ (by simp)).2 (by decide +kernel)
  simp only [h.secsNamed_eq] at hp
  split at hp
  · next o d p ho hd hp' =>
    simp only [decide_eq_true_eq] at hp
    refine ⟨w, w', f, s, o, { r_offset := 8, r_info := 2 ^ 32 + 1, r_addend := 0 }, h, by decide, ref_data _ (by simp [relocsIn, refOps]), (ref_refers _).2.1,
      (ref_imported _).1, ho, hp.1, ?_⟩
    intro n hn
    simp only [List.mem_cons, List.not_mem_nil, or_false] at hn
    rcases hn with rfl | rfl
    · rw [(sectionNamed_one hd).2.1]; exact hp.2.1
    · rw [(sectionNamed_one hp').2.1]; exact hp.2.2
  · cases hp

end Dld
