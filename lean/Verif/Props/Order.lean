import Verif.Lemmas.Order5
import Verif.Lemmas.LinkGood
import Verif.Lemmas.Sound2
import Verif.Props.Sound
import Verif.Props.Got
import Verif.Lemmas.Terminates
/-! # C66: what does not depend on the order of hash maps -/
namespace Dld
open Writer Spec

variable {opts : Options} {ops : List Op} {sched sched' : Sched} {w v w' v' : Writer} {f g : Bytes} {secs tecs : List Section}

theorem filterMap_congr_mem {α β : Type} {p q : α → Option β} {l : List α} (h : ∀ a ∈ l, p a = q a) : l.filterMap p = l.filterMap q := by
  induction l with
  | nil => rfl
  | cons a l ih => simp only [List.filterMap_cons, h a (by simp), ih fun b hb => h b (List.mem_cons_of_mem _ hb)]

theorem toSpec_shs {full : Bool} (h : secs.map (Section.blur full) = tecs.map (Section.blur full)) : secs.map (·.sh.toSpec) = tecs.map (·.sh.toSpec) :=
  map_of_map h (fun s => s.sh.toSpec) (fun _ => rfl)

/-- **C66, partial: the layout.** Two links of the same calls, visiting hash maps in orders of their own, write files of the same length with the same ELF header, the same program headers, the same
section headers and the same section names. -/
theorem C66_layout_partial (h : GoodRun opts ops sched w w' f secs) (h' : GoodRun opts ops sched' v v' g tecs) (hs : SameSort sched sched') :
    f.length = g.length ∧ decodeEhdr f = decodeEhdr g ∧ phdrs f = phdrs g ∧ shdrs f = shdrs g ∧ nameTable f = nameTable g := by
  have hwv := h.run.hist.unique h'.run.hist
  subst hwv
  obtain ⟨hA, hS, hL⟩ := Run.alike (full := false) hs h.run h'.run h.run.valid h'.run.valid (fun hf => by cases hf)
  have r := h.run.reads h.good h.names h.fit
  have r' := h'.run.reads h'.good h'.names h'.fit
  have hn : secs.length = tecs.length := by simpa using congrArg List.length hS
  refine ⟨hL, ?_, ?_, ?_, ?_⟩
  · rw [r.ehdr, r'.ehdr, hA.eh, hA.programHeaders, hn]
  · rw [r.phdrs, r'.phdrs, hA.programHeaders]
  · rw [r.shdrs, r'.shdrs]; exact toSpec_shs hS
  · rw [h.run.name_table h.good h.names h.fit, h'.run.name_table h'.good h'.names h'.fit]

/-- sections of the same name in both files -/
theorem sectionsNamed_same (h : GoodRun opts ops sched w w' f secs) (h' : GoodRun opts ops sched' v v' g tecs) (hs : SameSort sched sched') (n : List UInt8) :
    sectionsNamed f n = sectionsNamed g n := by
  obtain ⟨_, _, _, e1, e2⟩ := C66_layout_partial h h' hs
  unfold sectionsNamed Spec.nameOf
  rw [e1, e2]

theorem sectionNamed_same (h : GoodRun opts ops sched w w' f secs) (h' : GoodRun opts ops sched' v v' g tecs) (hs : SameSort sched sched') (n : List UInt8) :
    sectionNamed f n = sectionNamed g n ∧ addrNamed f n = addrNamed g n := by
  have : sectionNamed f n = sectionNamed g n := by unfold sectionNamed; rw [sectionsNamed_same h h' hs]
  exact ⟨this, by unfold addrNamed; rw [this]⟩

/-- **C66, partial: the symbols.** The entries of `.symtab` are the same, in another order; `.strtab` and `.dynstr` are the same. -/
theorem C66_symbols_partial (h : GoodLink opts ops sched w w' f secs) (h' : GoodLink opts ops sched' v v' g tecs) (hs : SameSort sched sched') :
    (symsOf (bodyNamed f b!".symtab")).Perm (symsOf (bodyNamed g b!".symtab")) ∧ bodyNamed f b!".strtab" = bodyNamed g b!".strtab" ∧
    bodyNamed f b!".dynstr" = bodyNamed g b!".dynstr" := by
  have hwv := h.run.hist.unique h'.run.hist
  subst hwv
  obtain ⟨hA, hS, hL⟩ := Run.alike (full := false) hs h.run h'.run h.run.valid h'.run.valid (fun hf => by cases hf)
  obtain ⟨x1, _, x3, x4, _, _, X⟩ := h.tables
  obtain ⟨y1, _, y3, y4, _, _, Y⟩ := h'.tables
  obtain ⟨_, a1, _⟩ := sectionNamed_one X.msymtab.2.2
  obtain ⟨_, b1, _⟩ := sectionNamed_one Y.msymtab.2.2
  obtain ⟨_, a3, _⟩ := sectionNamed_one X.mstrtab.2.2
  obtain ⟨_, b3, _⟩ := sectionNamed_one Y.mstrtab.2.2
  obtain ⟨_, a4, _⟩ := sectionNamed_one X.mdynstr.2.2
  obtain ⟨_, b4, _⟩ := sectionNamed_one Y.mdynstr.2.2
  refine ⟨?_, by rw [a3, b3, X.strs, Y.strs], by rw [a4, b4, X.dynstrs, Y.dynstrs]⟩
  rw [a1, b1, X.syms, Y.syms]
  have e : ∀ l : List Symbol, l.map (·.sym.toSpec) = (l.map unrel).map (·.sym.toSpec) := by
    intro l; rw [List.map_map]; rfl
  have hsort := SymbolTable.sorted_view (le' := SymbolTable.sortLe) (F := unrel) (fun _ _ => rfl) sched'.symIter (SymbolTable.view_of_strip hA.symtab)
  rw [e, e (v'.symtab.sorted sched'.symIter), ← hsort]
  exact ((SymbolTable.sorted_orders h.run.valid.symIter h'.run.valid.symIter w'.symtab).map _).map _

/-! ### What the loader binds -/

theorem bindings_glob (h : GoodLink opts ops sched w w' f secs) (st : Stages sched w) (hst : st.final = w') :
    bindings f b!".rela.dyn" 6 = (st.imports.map Import.plain).filterMap fun m => m.got.map fun o => (addrNamed f b!".got" + o, some (importName w m)) := by
  obtain ⟨ns, nd, T⟩ := h.run.hist.tableFacts
  unfold bindings
  rw [(h.relaDyn st hst).1, List.map_map]
  unfold globs
  rw [List.map_filterMap, List.filterMap_map]
  apply filterMap_congr_mem
  intro m hm
  simp only [Function.comp_apply, Import.plain]
  cases m.got with
  | none => rfl
  | some o =>
    simp only [Option.map_some, Option.some.injEq]
    obtain ⟨n, F⟩ := st.import_facts T h.named h.symNames hm
    have hmn : importName w m = n := h.importName_of T F
    obtain ⟨y, hy, _, hyn⟩ := F.entry h.run.valid h.run.hist T
    obtain ⟨op, path, hoff⟩ := F.offer
    show (addrNamed f b!".got" + o, dynName f m.index) = _
    rw [h.dynName_of T (by rw [← hst]; exact hy) F.memD (h.symNames.dyn _ _ _ _ hoff) hyn, ← hmn]
    rfl

theorem bindings_plt (h : GoodLink opts ops sched w w' f secs) (st : Stages sched w) (hst : st.final = w') :
    bindings f b!".rela.plt" 7 = (st.imports.map Import.plain).filterMap fun m => m.gotPlt.map fun o => (addrNamed f b!".got.plt" + o, some (importName w m)) := by
  obtain ⟨ns, nd, T⟩ := h.run.hist.tableFacts
  have L := st.linkRels h.run.valid h.run.hist
  have base : ∀ p ∈ [P.plt, P.gotPlt, P.got, P.copyRel], p ∈ (baseIdents opts.hashStyle).map (·.1) := by
    cases opts.hashStyle <;> decide
  obtain ⟨g, hg, hgp, hgn⟩ := h.own (base P.gotPlt (by simp))
  obtain ⟨got, hgot, hgotp, hgotn⟩ := h.own (base P.got (by simp))
  obtain ⟨cr, hcr, hcrp, hcrn⟩ := h.own (base P.copyRel (by simp))
  obtain ⟨_, hR⟩ := h.run.final_rels h.good.flags st hst hgot hgotp hg hgp hcr hcrp
  obtain ⟨x1, x2, x3, x4, x5, x6, X⟩ := h.tables
  obtain ⟨_, r1, _⟩ := sectionNamed_one X.mrelaPlt.2.2
  obtain ⟨_, _, g2⟩ := sectionNamed_one hgn
  have g2 : addrNamed f b!".got.plt" = g.sh.sh_addr := g2
  have hrels : relasOf (bodyNamed f b!".rela.plt") = (called st.imports).map fun e => ⟨addrNamed f b!".got.plt" + e.2, e.1.index, 7, 0⟩ := by
    rw [r1, X.plts, hR, L.pltRels, List.map_map, List.map_map, g2]
    apply List.map_congr_left
    intro e _
    show (rebaseRela _ _ _ (rela e.2 e.1.index 7)).toSpec = _
    rw [rebase_slot, rela_toSpec _ _ _ (by decide), Nat.add_comm]
  unfold bindings
  have hall : ((called st.imports).map fun e => (⟨addrNamed f b!".got.plt" + e.2, e.1.index, 7, 0⟩ : ERela)).filter (fun r => r.type == 7) =
      (called st.imports).map fun e => (⟨addrNamed f b!".got.plt" + e.2, e.1.index, 7, 0⟩ : ERela) := by
    rw [List.filter_eq_self]
    intro r hr
    obtain ⟨e, _, rfl⟩ := List.mem_map.1 hr
    rfl
  rw [hrels, hall, List.map_map]
  unfold called
  rw [List.map_filterMap, List.filterMap_map]
  apply filterMap_congr_mem
  intro m hm
  simp only [Function.comp_apply, Import.plain]
  cases m.gotPlt with
  | none => rfl
  | some o =>
    simp only [Option.map_some, Option.some.injEq]
    obtain ⟨n, F⟩ := st.import_facts T h.named h.symNames hm
    have hmn : importName w m = n := h.importName_of T F
    obtain ⟨y, hy, _, hyn⟩ := F.entry h.run.valid h.run.hist T
    obtain ⟨op, path, hoff⟩ := F.offer
    show (addrNamed f b!".got.plt" + o, dynName f m.index) = _
    rw [h.dynName_of T (by rw [← hst]; exact hy) F.memD (h.symNames.dyn _ _ _ _ hoff) hyn, ← hmn]
    rfl

/-- **C66, partial: what the loader binds.** The `GLOB_DAT` (6) relocations of the GOT and the `JUMP_SLOT` (7) relocations of the PLT name the same symbols for the same places, in another order. -/
theorem C66_bindings_partial (h : GoodLink opts ops sched w w' f secs) (h' : GoodLink opts ops sched' v v' g tecs) (hs : SameSort sched sched') :
    (bindings f b!".rela.dyn" 6).Perm (bindings g b!".rela.dyn" 6) ∧ (bindings f b!".rela.plt" 7).Perm (bindings g b!".rela.plt" 7) := by
  have hwv := h.run.hist.unique h'.run.hist
  subst hwv
  obtain ⟨st, hst⟩ := h.run.stages
  obtain ⟨st', hst'⟩ := h'.run.stages
  have hp := imports_perm h.run.valid h'.run.valid st.toEarly st'.toEarly
  rw [bindings_glob h st hst, bindings_glob h' st' hst', bindings_plt h st hst, bindings_plt h' st' hst',
    (sectionNamed_same h.toGoodRun h'.toGoodRun hs b!".got").2, (sectionNamed_same h.toGoodRun h'.toGoodRun hs b!".got.plt").2]
  exact ⟨hp.filterMap _, hp.filterMap _⟩

/-! ### The other sections -/

/-- the sections blurred are the writer's own -/
theorem loose_ptr (h : Run opts ops sched w w' f secs) (hf : FlagsOk ops) {t : Section} (ht : t ∈ secs) (hl : t.loose = true) :
    t.ptr = P.plt ∨ t.ptr = P.sym ∨ t.ptr = P.dynsym ∨ t.ptr = P.hash ∨ t.ptr = P.gnuHash ∨ t.ptr = P.relaDyn ∨ t.ptr = P.relaPlt ∨ t.ptr = P.gotPlt := by
  obtain ⟨s, hs, e⟩ := h.origin hf ht
  have e1 : t.ptr = s.ptr := congrArg (·.1) e
  have e2 : t.kind = s.kind := congrArg (·.2.2.1) e
  unfold Section.loose at hl
  rw [e1, e2] at hl
  rw [e1]
  rcases h.hist.secFacts.known s hs with hk | hk
  · have := origins_cases hk
    simp only [Section.origin, Prod.mk.injEq] at this
    rcases this with c | c | c | c | c | c | c | c | c | c | c | c | c | c | c | c <;> simp [c.1, c.2.2.1, P.plt, P.sym, P.dynsym, P.hash, P.gnuHash, P.relaDyn, P.relaPlt, P.gotPlt, P.null, P.shstr, P.symstr, P.dynstr, P.interp, P.got, P.dynamic, P.copyRel] at hl ⊢
  · obtain ⟨h1, h2, h3, _⟩ := hk
    simp only [P.first] at h1
    simp only [h2, Bool.or_eq_true, beq_iff_eq, reduceCtorEq, false_or, P.relaDyn, P.relaPlt, P.gotPlt, P.plt] at hl
    omega

theorem Stages.unique {sched : Sched} {w w' : Writer} (h : w.computeSections sched = .ok w') (st : Stages sched w) : st.final = w' :=
  Except.ok.inj (st.computeSections.symm.trans h)

theorem copiesFrom_nil {ms : List Import} : ∀ {a : Nat}, copiesFrom a ms = [] → ∀ m ∈ ms, m.copy = none := by
  induction ms with
  | nil => intro a _ m hm; cases hm
  | cons m ms ih =>
    intro a h m' hm
    cases hc : m.copy with
    | some n => simp [copiesFrom, hc] at h
    | none =>
      simp only [copiesFrom, hc] at h
      rcases List.mem_cons.1 hm with rfl | hm
      · exact hc
      · exact ih h m' hm

theorem no_copies (h : GoodLink opts ops sched w w' f secs) (hc : ∀ r ∈ relasOf (bodyNamed f b!".rela.dyn"), r.type ≠ 5) (st : Stages sched w) :
    ∀ m ∈ st.imports, m.copy = none := by
  have hr := (h.relaDyn st (Stages.unique h.run.compute st)).2.1
  have : (relasOf (bodyNamed f b!".rela.dyn")).filter (fun r => r.type == 5) = [] := by
    rw [List.filter_eq_nil_iff]
    intro r hr hx
    exact hc r hr (by simpa using hx)
  rw [this] at hr
  exact copiesFrom_nil (List.map_eq_nil_iff.1 hr.symm)

theorem fromLe_inj : ∀ {x y : List UInt8}, x.length = y.length → fromLe x = fromLe y → x = y := by
  intro x
  induction x with
  | nil => intro y hl _; cases y with
    | nil => rfl
    | cons => cases hl
  | cons a x ih => intro y hl h; cases y with
    | nil => cases hl
    | cons b y =>
      simp only [fromLe] at h
      have ha := a.toNat_lt
      have hb := b.toNat_lt
      simp only [List.length_cons, Nat.add_right_cancel_iff] at hl
      have h1 : a.toNat = b.toNat := by omega
      have h2 : fromLe x = fromLe y := by omega
      rw [ih hl h2, UInt8.toNat_inj.1 h1]

/-- lists of a reserved part and words are known by their words -/
theorem words_ext {x y : List UInt8} {n : Nat} (hx : x.length = 8 * (n + 3)) (hy : y.length = 8 * (n + 3)) (h0 : slice x 0 24 = slice y 0 24)
    (h : ∀ i, i < n → field x (8 * (i + 3)) 8 = field y (8 * (i + 3)) 8) : x = y := by
  apply List.ext_getElem?
  intro j
  have key : ∀ {a : Nat} {l : Nat}, slice x a l = slice y a l → a ≤ j → j < a + l → x[j]? = y[j]? := by
    intro a l hs h1 h2
    have := congrArg (fun z => z[j - a]?) hs
    simp only [slice, List.getElem?_take, List.getElem?_drop] at this
    rw [if_pos (by omega), if_pos (by omega)] at this
    rwa [show a + (j - a) = j from by omega] at this
  by_cases hj : j < 24
  · exact key h0 (by omega) (by omega)
  · by_cases hj2 : j < 8 * (n + 3)
    · have hi : j / 8 - 3 < n := by omega
      have hf := h (j / 8 - 3) hi
      unfold field at hf
      refine key (fromLe_inj ?_ hf) (by omega) (by omega)
      simp only [slice, List.length_take, List.length_drop, hx, hy]
    · rw [List.getElem?_eq_none (by omega), List.getElem?_eq_none (by omega)]

theorem gotPlt_same (h : GoodLink opts ops sched w w' f secs) (h' : GoodLink opts ops sched' v v' g tecs) (hs : SameSort sched sched') :
    bodyNamed f b!".got.plt" = bodyNamed g b!".got.plt" := by
  obtain ⟨ns, n1, n2, _, l1, z1, _, _, s1⟩ := plt_in_file h
  obtain ⟨ms, m1, m2, _, l2, z2, _, _, s2⟩ := plt_in_file h'
  have hlen : ns.length = ms.length := by
    refine ((List.perm_ext_iff_of_nodup n1 m1).2 fun n => ?_).length_eq
    rw [n2, m2]
  rw [← hlen] at l2
  refine words_ext l1 l2 (by rw [z1, z2]) fun i hi => ?_
  obtain ⟨⟨_, _, p1⟩, _⟩ := s1 i ns[i] (List.getElem?_eq_getElem hi)
  obtain ⟨⟨_, _, p2⟩, _⟩ := s2 i (ms[i]'(by omega)) (List.getElem?_eq_getElem (by omega))
  rw [p1.word, p2.word, (sectionNamed_same h.toGoodRun h'.toGoodRun hs b!".plt").2]

/-- **C66, partial: the contents.** If no data object is copied from a library (`R_X86_64_COPY`, 5), every section has the same bytes, except the symbol and relocation tables, the hash tables and the
PLT; and the entries of `.dynsym` are the same, in another order. -/
theorem C66_contents_partial (h : GoodLink opts ops sched w w' f secs) (h' : GoodLink opts ops sched' v v' g tecs) (hs : SameSort sched sched')
    (hc : ∀ r ∈ relasOf (bodyNamed f b!".rela.dyn"), r.type ≠ 5) :
    (∀ s ∈ shdrs f, (∀ n ∈ orderedSections, Spec.nameOf f s ≠ some n) → bodyOf f s = bodyOf g s) ∧
    (symsOf (bodyNamed f b!".dynsym")).Perm (symsOf (bodyNamed g b!".dynsym")) := by
  have hwv := h.run.hist.unique h'.run.hist
  subst hwv
  obtain ⟨hA, hS, hL⟩ := Run.alike (full := true) hs h.run h'.run h.run.valid h'.run.valid (fun _ => no_copies h hc)
  have r := h.run.reads h.good h.names h.fit
  have r' := h'.run.reads h'.good h'.names h'.fit
  constructor
  · intro s hsm hn
    rw [r.shdrs] at hsm
    obtain ⟨t, ht, rfl⟩ := List.mem_map.1 hsm
    obtain ⟨i, hi⟩ := List.mem_iff_getElem?.1 ht
    have hb := congrArg (fun l => l[i]?) hS
    simp only [List.getElem?_map, hi, Option.map_some] at hb
    obtain ⟨u, hu, hub⟩ := Option.map_eq_some_iff.1 hb.symm
    have hum := List.mem_of_getElem? hu
    have hut : u.blur true = t.blur true := hub
    obtain ⟨p1, _, _, _, p5, p6⟩ := Section.blur_iff.1 hut
    rw [r.body t ht, ← p5, r'.body u hum]
    by_cases hlo : t.loose = true
    · have hname := fun p hp => h.run.name_own h.good h.names ht (p := p) hp
      rw [h.run.reads_name h.good h.clean h.names h.fit ht] at hn
      rcases loose_ptr h.run h.good.flags ht hlo with c | c | c | c | c | c | c | c
      · exact absurd ((hname P.plt (by decide)).2 c) (hn _ (by decide))
      · exact absurd ((hname P.sym (by decide)).2 c) (hn _ (by decide))
      · exact absurd ((hname P.dynsym (by decide)).2 c) (hn _ (by decide))
      · exact absurd ((hname P.hash (by decide)).2 c) (hn _ (by decide))
      · exact absurd ((hname P.gnuHash (by decide)).2 c) (hn _ (by decide))
      · exact absurd ((hname P.relaDyn (by decide)).2 c) (hn _ (by decide))
      · exact absurd ((hname P.relaPlt (by decide)).2 c) (hn _ (by decide))
      · have base : P.gotPlt ∈ (baseIdents opts.hashStyle).map (·.1) := by cases opts.hashStyle <;> decide
        obtain ⟨a, ha, hap, han⟩ := h.own base
        obtain ⟨b, hb, hbp, hbn⟩ := h'.own base
        obtain ⟨_, a1, _⟩ := sectionNamed_one han
        obtain ⟨_, b1, _⟩ := sectionNamed_one hbn
        have hsame := gotPlt_same h h' hs
        have a2 : bodyNamed f b!".got.plt" = contents a := a1.trans (r.body a ha)
        have b2 : bodyNamed g b!".got.plt" = contents b := b1.trans (r'.body b hb)
        have ea : t = a := eq_of_ptr (h.run.ptrs_nodup h.good.flags) ht ha (by rw [c, hap])
        have eb : u = b := eq_of_ptr (h'.run.ptrs_nodup h'.good.flags) hum hb (by rw [p1, c, hbp])
        rw [ea, eb, ← a2, ← b2, hsame]
    · have hk : t.keep true = true := by simp [Section.keep, hlo]
      have hk1 := congrArg (Section.keep true) hut
      have hk' : u.keep true = true := Eq.trans (hk1 :) hk
      rw [hk'] at p6
      have hid : ∀ l : List Chunk, l.map (Chunk.blur true) = l := by
        intro l; induction l with
        | nil => rfl
        | cons c l ih => rw [List.map_cons, ih]; rfl
      rw [hid, hid] at p6
      unfold contents
      rw [p6]
  · obtain ⟨_, x2, _, _, _, _, X⟩ := h.tables
    obtain ⟨_, y2, _, _, _, _, Y⟩ := h'.tables
    obtain ⟨_, a1, _⟩ := sectionNamed_one X.mdynsym.2.2
    obtain ⟨_, b1, _⟩ := sectionNamed_one Y.mdynsym.2.2
    rw [a1, b1, X.dyns, Y.dyns, hA.dynsym rfl]
    exact (SymbolTable.sorted_orders h.run.valid.dynIter h'.run.valid.dynIter v'.dynsym).map _

/-! ### Objects alone -/

/-- **C66, partial: objects alone.** Without shared libraries, and if the symbols have different hashes, the orders of hash maps make no difference at all. -/
theorem C66_objects_partial (h : GoodLink opts ops sched w w' f secs) (h' : GoodLink opts ops sched' v v' g tecs) (hs : SameSort sched sched') (hl : NoLibraries ops)
    (hd : DistinctHashes ops) : f = g := by
  have hwv := h.run.hist.unique h'.run.hist
  subst hwv
  exact run_equal h.run h'.run hs hl (h.run.hist.distinct h.symstr hd)

namespace Linker
variable {env : Env} {l : Linker} {s s' : LinkSched}

/-- without libraries and archives there is nothing to search -/
theorem gathered_objects (hv : s.Valid) (hl : l.options.sharedLibs = []) (ha : l.archives = []) {fuel : Nat} {w : Writer} (h : gathered env l s fuel = some (.ok w)) :
    ∃ w0, Writer.new l.options = .ok w0 ∧ loadAll env l w0 = .ok w := by
  unfold gathered at h
  split at h
  · cases h
  · next w0 h0 =>
    refine ⟨w0, h0, ?_⟩
    split at h
    · cases h
    · next w1 h1 =>
      cases fuel with
      | zero => cases h
      | succ fuel =>
        have har : s.archives [] = [] := (hv.archives []).eq_nil
        simp only [resolveLoop, resolveRound, findInLibs, processArchives, hl, ha, har, List.map_nil, List.zipIdx_nil, foldM', ok_bind, if_true] at h
        rw [h1, Option.some.inj h]

/-- **C66, partial: files.** Linking object files alone whose symbols have different hashes gives the same file in every run. -/
theorem C66_files_partial (hv : s.Valid) (hv' : s'.Valid) (hs : SameSort s.toSched s'.toSched) (hl : l.options.sharedLibs = []) (ha : l.archives = [])
    (hn : NamesSmall env l) (hd : ∀ n m, InputName env l n → InputName env l m → gnuHash n = gnuHash m → n = m)
    (h0 : ∀ n, InputName env l n → gnuHash n ≠ 0 ∧ gnuHash n ≠ gnuHash []) {fuel fuel' : Nat} {f g : Bytes}
    (h : link env l s fuel = some (.ok f)) (h' : link env l s' fuel' = some (.ok g)) : f = g := by
  obtain ⟨log, loaded, w, w', secs, hg, hc, hr, _⟩ := link_ok hv h
  obtain ⟨log', loaded', v, v', tecs, hg', hc', hr', _⟩ := link_ok hv' h'
  obtain ⟨w0, e0, e1⟩ := gathered_objects hv hl ha hg
  obtain ⟨w0', e0', e1'⟩ := gathered_objects hv' hl ha hg'
  have e : w0 = w0' := Except.ok.inj (e0.symm.trans e0')
  subst e
  have e : w = v := Except.ok.inj (e1.symm.trans e1')
  subst e
  have hno : NoLibraries (opsOf log) := by
    intro e n path r hop
    obtain ⟨⟨hp, _⟩, _⟩ := hc.dynsym hop
    rw [hl] at hp
    cases hp
  obtain ⟨ns, nd, T⟩ := hr.hist.tableFacts
  have hnames : ∀ n ∈ symbolNames (opsOf log), InputName env l n := by
    intro n hn
    obtain ⟨h1, h2⟩ := mem_symbolNames.1 hn
    obtain ⟨s, sec, path, r, hop⟩ := mem_symNames_iff.1 h1
    obtain ⟨d, e, j, h3, h4, h5, _⟩ := hc.fromInputs _ _ _ _ _ hop
    exact ⟨h2, _, d, e, s, h3, List.mem_of_getElem? h4, h5⟩
  have hlen : w.symstr.totalLen < 2 ^ 32 := by
    rw [T.symstr.total]
    exact hn.total hc.fromInputs T.symstr.nodup fun n hn => by
      rcases (T.symNames n).1 hn with e | e
      · exact .inl e
      · exact .inr (.inl e)
  exact run_equal hr hr' hs hno (hr.hist.distinct hlen ⟨fun n hn m hm => hd n m (hnames n hn) (hnames m hm), fun n hn => h0 n (hnames n hn)⟩)

end Linker

/-! ### Examples -/

/-- every hash map is visited backwards -/
def Sched.back : Sched := { Sched.id with symIter := List.reverse, dynIter := List.reverse, gotPltIter := List.reverse }

theorem Sched.back_valid : Sched.back.Valid := ⟨fun l => List.reverse_perm l, fun l => List.reverse_perm l, fun l => List.reverse_perm l, fun _ => .rfl⟩

theorem filterMap_range {α : Type} (l : List α) : (List.range l.length).filterMap (fun i => l[i]?) = l := by
  induction l with
  | nil => rfl
  | cons a l ih =>
    rw [List.length_cons, List.range_succ_eq_map, List.filterMap_cons, List.filterMap_map]
    show a :: _ = _
    congr 1

theorem back_sorts : SameSort Sched.id Sched.back :=
  ⟨fun hs => List.range hs.length, fun l => by simp only [List.length_map, filterMap_range]; rfl, fun l => by simp only [List.length_map, filterMap_range]; rfl⟩

/-- two functions of a library are called -/
def twoCalls : List Op :=
  [ .push [] {} (some []) ⟨0, 0⟩,
    .push b!".text" (demoSh SHT_PROGBITS 6 24 16) (some (List.replicate 24 0x90)) ⟨16, 0⟩,
    .sym (demoSym STT_FUNC 1 0 12) (some ⟨16, 0⟩) b!"_start" demoPath (.named 1),
    .sym (demoSym 0 0 0 0) (some ⟨0, 0⟩) b!"puts" demoPath (.named 8),
    .sym (demoSym 0 0 0 0) (some ⟨0, 0⟩) b!"exit" demoPath (.named 13),
    .reloc { r_offset := 1, r_info := 8 * 2 ^ 32 + R_X86_64_PLT32, r_addend := -4 } (.named 8) ⟨16, 0⟩ demoPath,
    .reloc { r_offset := 11, r_info := 8 * 2 ^ 32 + R_X86_64_PLT32, r_addend := -4 } (.named 13) ⟨16, 0⟩ demoPath,
    .dynsym (demoSym STT_FUNC 12 0x1234 10) b!"puts" demoPath (.named 22),
    .dynsym (demoSym STT_FUNC 12 0x1244 10) b!"exit" demoPath (.named 27),
    .needed b!"libc.so.6" ]

/-- two links that visit the hash maps in opposite orders: the files differ, but not in what the theorems above say -/
example : ∃ w w' f s v v' g t, GoodLink Options.default twoCalls Sched.id w w' f s ∧ GoodLink Options.default twoCalls Sched.back v v' g t ∧
    SameSort Sched.id Sched.back ∧ (∀ r ∈ relasOf (bodyNamed f b!".rela.dyn"), r.type ≠ 5) ∧ f ≠ g ∧
    bindings f b!".rela.plt" 7 = [(2101280, some b!"puts"), (2101288, some b!"exit")] := by
  obtain ⟨w, w', f, s, h, hp⟩ := GoodLink.of_runs (opts := .default) (ops := twoCalls) (P := fun _ _ f _ => decide (f[8239]? = some 0) &&
    (decide (relasOf (bodyNamed f b!".rela.dyn") = []) && decide (bindings f b!".rela.plt" 7 = [(2101280, some b!"puts"), (2101288, some b!"exit")])))
    Sched.id_valid (by decide +kernel) (by decide +kernel) (by decide +kernel)
  obtain ⟨v, v', g, t, h', hp'⟩ := GoodLink.of_runs (opts := .default) (ops := twoCalls) (P := fun _ _ f _ => decide (f[8239]? = some 1)) Sched.back_valid
    (by decide +kernel) (by decide +kernel) (by decide +kernel)
  simp only [Bool.and_eq_true, decide_eq_true_eq] at hp hp'
  refine ⟨w, w', f, s, v, v', g, t, h, h', back_sorts, ?_, ?_, hp.2.2⟩
  · rw [hp.2.1]; intro r hr; cases hr
  · rintro rfl
    rw [hp.1] at hp'
    exact absurd hp' (by decide)

/-- the hypotheses about the symbols of objects are met -/
example : DistinctHashes tlsOps ∧ NoLibraries tlsOps := by
  refine ⟨by decide +kernel, fun e n path r h => ?_⟩
  simp [tlsOps] at h

namespace Linker

def backward : LinkSched := { LinkSched.id with toSched := Sched.back }

/-- a check of the names of files -/
theorem distinct_of_table {files : List (Path × Bytes)} {elfs : List (Bytes × ElfFile)} {ars : List (Bytes × ArFile)} {l : Linker}
    (h : ((allNames elfs).filter (!·.isEmpty)).all (fun n => decide (gnuHash n ≠ 0 ∧ gnuHash n ≠ gnuHash []) &&
      ((allNames elfs).filter (!·.isEmpty)).all fun m => decide (gnuHash n = gnuHash m → n = m)) = true) :
    (∀ n m, InputName (tableEnv files elfs ars) l n → InputName (tableEnv files elfs ars) l m → gnuHash n = gnuHash m → n = m) ∧
    ∀ n, InputName (tableEnv files elfs ars) l n → gnuHash n ≠ 0 ∧ gnuHash n ≠ gnuHash [] := by
  have hm : ∀ n, InputName (tableEnv files elfs ars) l n → n ∈ (allNames elfs).filter (!·.isEmpty) := by
    rintro n ⟨h0, p, d, e, s, hi, hs, hn⟩
    refine List.mem_filter.2 ⟨List.mem_cons_of_mem _ (List.mem_flatMap.2 ⟨(d, e), hi.of_table, List.mem_filterMap.2 ⟨s, hs, hn⟩⟩), ?_⟩
    cases n with
    | nil => exact absurd rfl h0
    | cons => rfl
  have h := fun n hn => Bool.and_eq_true_iff.1 (List.all_eq_true.1 h n hn)
  refine ⟨fun n m hn hm' => ?_, fun n hn => of_decide_eq_true (h n (hm n hn)).1⟩
  exact of_decide_eq_true (List.all_eq_true.1 (h n (hm n hn)).2 m (hm m hm'))

/-- a link of two objects, one of which calls a function of the other, is the same in both orders -/
example : ∃ f, link pairEnv pairLinker LinkSched.id 5 = some (.ok f) ∧ link pairEnv pairLinker backward 5 = some (.ok f) := by
  have h : (link pairEnv pairLinker LinkSched.id 5).any (fun r => r.toOption.isSome) = true := by decide +kernel
  have h' : (link pairEnv pairLinker backward 5).any (fun r => r.toOption.isSome) = true := by decide +kernel
  have key : ∀ {x : Option (M Bytes)}, x.any (fun r => r.toOption.isSome) = true → ∃ f, x = some (.ok f) := by
    intro x hx
    match x with
    | some (.ok f) => exact ⟨f, rfl⟩
    | some (.error _) => cases hx
    | none => cases hx
  obtain ⟨f, hf⟩ := key h
  obtain ⟨g, hg⟩ := key h'
  obtain ⟨d1, d2⟩ := distinct_of_table (files := [(mainPath, List.replicate 16 0x90), (calleePath, List.replicate 8 0xc3)])
    (elfs := [(List.replicate 16 0x90, callerElf), (List.replicate 8 0xc3, memberElf)]) (ars := []) (l := pairLinker) (by decide +kernel)
  have := C66_files_partial (s := LinkSched.id) (s' := backward) LinkSched.id_valid ⟨Sched.back_valid, fun _ _ _ => .rfl, fun _ _ _ => .rfl, fun _ _ _ => .rfl, fun _ => .rfl⟩ back_sorts rfl rfl
    (NamesSmall.of_table (by decide +kernel)) d1 d2 hf hg
  exact ⟨f, hf, by rw [hg, this]⟩

end Linker
end Dld
