import Verif.Spec.Exports
import Verif.Lemmas.DynPlace
import Verif.Lemmas.DemoFiles
import Verif.Props.Files
/-! # C130: what the executable offers to the libraries -/
namespace Dld
open Spec Writer SymbolTable
variable {opts : Options} {ops : List Op} {sch : Sched} {env : Env} {l : Linker} {sched : LinkSched} {loaded : List Loaded} {log : List Call} {w w' : Writer}
  {file : Bytes} {secs : List Section}

/-- the section of a dynamic symbol that has one -/
theorem Writer.Stages.final_home (st : Stages sch w) (hv : sch.Valid) (hh : Hist opts ops w) (hc : st.final.sections.length ≤ 65536)
    {k : Nat} {y : Symbol} (hy : st.final.dynsym.get (.named k) = some y) (h0 : y.sym.st_shndx ≠ 0) :
    ∃ c, st.final.sections[y.sym.st_shndx]? = some c ∧ c.ptr = P.copyRel := by
  have ho := (Classical.not_not.1 (mt (st.final_place hv hh hc hy).2 h0) : y.sym.st_info % 16 = 1)
  obtain ⟨_, f2, _⟩ := st.final_tables
  obtain ⟨_, p2, _⟩ := st.patched_tables
  have hs := st.hspecial
  simp only [handleSpecialSymbols, bind_ok, Prod.exists] at hs
  obtain ⟨g, _, a, _, b, _, t, ss, h1, c, hcs, h2⟩ := hs
  have hss : st.special.sections = ss := by rw [← Except.ok.inj h2]
  rw [f2, ← Except.ok.inj h2] at hy
  simp only at hy
  rw [p2, SymbolTable.get_updateObjectSymbols, Option.map_eq_some_iff] at hy
  obtain ⟨s, hs, rfl⟩ := hy
  have hob : s.isObject = true := by
    by_cases hob : s.isObject = true
    · exact hob
    · rw [if_neg hob] at ho
      exact absurd (by simpa [Symbol.isObject, stType, STT_OBJECT] using ho) hob
  rw [if_pos hob]
  obtain ⟨mc, pc⟩ := sec_ok hcs
  obtain ⟨i, hi⟩ := List.getElem?_of_mem mc
  have hi : st.special.sections[i]? = some c := by rw [hss]; exact hi
  obtain ⟨hx, z, hz⟩ := st.special_index hv hh hi
  have hlt := (List.getElem?_eq_some_iff.1 hz).1
  obtain ⟨z', hz', e⟩ := getElem?_of_map st.posts.2.2.2.1 hi
  simp only [hx, u16]
  rw [Nat.mod_eq_of_lt (by omega)]
  exact ⟨z', hz', (congrArg (·.1) e :).symm.trans pc⟩

/-- the section of an entry of the dynamic symbol table: none, or `.copyrel` if it is a data object -/
theorem GoodLink.dyn_home (h : GoodLink opts ops sch w w' file secs) {k : Nat} {y : ESym} (hk : (symsOf (bodyNamed file b!".dynsym"))[k]? = some y) :
    (y.shndx = 0 ↔ y.info % 16 ≠ 1) ∧ (y.shndx ≠ 0 → ∃ s, (shdrs file)[y.shndx]? = some s ∧ Spec.nameOf file s = some b!".copyrel") := by
  obtain ⟨st, hst⟩ := h.run.stages
  obtain ⟨a, b, c, d, e, f, X⟩ := h.tables
  obtain ⟨_, b1, _⟩ := sectionNamed_one X.mdynsym.2.2
  rw [b1, X.dyns, List.getElem?_map, Option.map_eq_some_iff] at hk
  obtain ⟨s, hs, rfl⟩ := hk
  obtain ⟨j, hj⟩ := (SymbolTable.mem_sorted h.run.valid.dynIter).1 (List.mem_of_getElem? hs)
  have hlen : st.final.sections.length ≤ 65536 := by rw [hst, ← h.run.secs_length]; have := h.fit.count; omega
  have hj : st.final.dynsym.get (.named j) = some s := by rw [hst]; exact hj
  refine ⟨(st.final_place h.run.valid h.run.hist hlen hj :), fun h0 => ?_⟩
  obtain ⟨z, hz, hzp⟩ := st.final_home h.run.valid h.run.hist hlen hj h0
  rw [hst] at hz
  obtain ⟨hlt, _⟩ := List.getElem?_eq_some_iff.1 hz
  rw [← h.run.secs_length] at hlt
  have ht := List.getElem?_eq_getElem hlt
  obtain ⟨z', hz', F, _⟩ := h.run.finalized ht
  rw [hz] at hz'
  cases hz'
  have hm := List.mem_of_getElem? ht
  refine ⟨secs[s.sym.st_shndx].sh.toSpec, ?_, ?_⟩
  · rw [(h.run.reads h.good h.names h.fit).shdrs, List.getElem?_map]
    show (secs[s.sym.st_shndx]?).map _ = _
    rw [ht]; rfl
  · rw [h.run.reads_name h.good h.clean h.names h.fit hm]
    exact (h.run.name_own h.good h.names hm (p := P.copyRel) (by decide)).2 (F.ptr.trans hzp)

/-- **C130, what there is.** Whatever the executable offers to the libraries of the process is a data object (symbol type 1) in `.copyrel`: no function and
nothing else that the linked files define is ever offered. -/
theorem C130_offers (h : GoodLink opts ops sch w w' file secs) {k : Nat} {n : Name} {y : ESym} (hy : Offers file k n y) :
    y.info % 16 = 1 ∧ ∃ s, (shdrs file)[y.shndx]? = some s ∧ Spec.nameOf file s = some b!".copyrel" :=
  ⟨Classical.not_not.1 (mt (h.dyn_home hy.entry).1.2 hy.defined), (h.dyn_home hy.entry).2 hy.defined⟩

/-- what a link takes from a library was needed by an object -/
theorem LinkRun.import_needed (R : LinkRun env l sched loaded log w w' file secs) {s : Sym} {n : Name} {path : Path} {r : SymbolRef}
    (hd : Op.dynsym s n path r ∈ opsOf log) : ImportedIn (opsOf log) n := by
  obtain ⟨a, c, b, el, hc⟩ := mem_opsOf hd
  cases R.calls.just a c b el with
  | «section» => cases hc
  | symbol => cases hc
  | reloc => cases hc
  | needed => cases hc
  | @dynsym _ _ _ _ _ _ _ q _ _ _ _ _ hq hm =>
    cases hc
    obtain ⟨s', sec, ⟨⟨p, y, hy⟩, _⟩, _⟩ := hm.1.wanted
    refine ⟨opsOf a, s, path, r, opsOf b, by rw [el]; simp [opsOf], s', sec, p, y, ?_⟩
    obtain ⟨t, rfl⟩ := hq
    simp only [opsOf, List.map_append]
    exact List.mem_append_left _ hy

/-- **C130 is violated by every link**: what belongs to the program itself (an object of the command line defines it, or no library has it) is not in the
dynamic symbol table, whether or not libraries refer to it. -/
theorem C130_own_violated (R : LinkRun env l sched loaded log w w' file secs) {n : Name} (ho : OwnName env l n) (hn : n ≠ []) (k : Nat) :
    dynName file k ≠ some n := by
  intro h
  obtain ⟨e, path, r, hd⟩ := R.good.dyn_source h hn
  exact R.calls.not_imported ho (R.import_needed hd)

/-- **C130, what holds.** The data objects that the program takes from libraries and of which it has copies are offered, so that the libraries use the copies
as well: the entry of such an object is a definition, lies in `.copyrel`, and the loader fills its place with a `COPY` (5) relocation. What is missing:
everything that the linked files define (`C130_own_violated`). -/
theorem C130_copy_partial (R : LinkRun env l sched loaded log w w' file secs) {k : Nat} {n : Name} {y : ESym} (hn : n ≠ [])
    (hy : (symsOf (bodyNamed file b!".dynsym"))[k]? = some y) (hk : dynName file k = some n) (ho : y.info % 16 = 1) :
    Offers file k n y ∧ (∃ s, LiesIn file y s ∧ Spec.nameOf file s = some b!".copyrel") ∧
      ⟨y.value, k, 5, 0⟩ ∈ relasOf (bodyNamed file b!".rela.dyn") := by
  have h := R.good
  obtain ⟨e, path, r, hd⟩ := h.dyn_source hk hn
  have hi := R.import_needed hd
  obtain ⟨copies, c1, _, c3, _, c5⟩ := copies_in_file h
  have hm := (c3 n).2 ⟨hi, k, y, hy, hk, ho⟩
  obtain ⟨⟨n', o, k', y'⟩, hm', e⟩ := List.mem_map.1 hm
  have e : n' = n := e
  subst e
  obtain ⟨d1, d2, d3, s, d4, d5⟩ := c5 _ _ _ _ hm'
  have : k' = k := h.dynName_inj d2 hk
  subst this
  rw [hy] at d1
  cases d1
  have hdef : y.shndx ≠ 0 := fun h0 => (h.dyn_home hy).1.1 h0 ho
  have hof : Offers file k' n' y := ⟨hy, hk, hdef⟩
  obtain ⟨_, s', e1, e2⟩ := C130_offers h hof
  have : s' = s := by
    have h1 : s' ∈ sectionsNamed file b!".copyrel" := List.mem_filter.2 ⟨List.mem_of_getElem? e1, by simp [e2]⟩
    unfold sectionNamed at d4
    split at d4
    · next e3 =>
      rw [e3] at h1
      exact (List.mem_singleton.1 h1).trans (Option.some.inj d4)
    · cases d4
  subst this
  have ha : addrNamed file b!".copyrel" = s'.addr := by unfold addrNamed; rw [d4]
  refine ⟨hof, ⟨s', ⟨e1, by omega, by omega⟩, e2⟩, ?_⟩
  have : (⟨addrNamed file b!".copyrel" + o, k', 5, 0⟩ : ERela) ∈ (relasOf (bodyNamed file b!".rela.dyn")).filter (fun r => r.type == 5) := by
    rw [c1]; exact List.mem_map.2 ⟨_, hm', rfl⟩
  rw [d3]
  exact (List.mem_filter.1 this).1

/-- a library that has a function `f` and a variable `v`, and refers to `g` -/
def callbackLib : ElfFile where
  isObjectFile := false
  sectionHeaders := []
  secName := fun _ => none
  syms := []
  symName := fun _ => none
  shdrRelocs := []
  dynsyms := [{}, { demoSym STT_FUNC 5 0x1000 4 with st_name := 1 }, { demoSym 0 0 0 0 with st_name := 3 }, { demoSym STT_OBJECT 6 0x2000 8 with st_name := 5 }]
  dynName := AMap.get? [(0, []), (1, b!"f"), (3, b!"g"), (5, b!"v")]

/-- a program that uses `f`, `g` and `v` -/
def callbackElf : ElfFile :=
  { wholeElf with
    syms := wholeElf.syms ++ [{ demoSym 0 0 0 0 with st_name := 12 }]
    symName := AMap.get? [(0, []), (1, b!"_start"), (8, b!"f"), (10, b!"g"), (12, b!"v")] }

def callbackEnv : Env :=
  tableEnv [(Linker.calleePath, partBytes), (mainPath, wholeBytes), (libPath, b!"library")]
    [(partBytes, partElf), (wholeBytes, callbackElf), (b!"library", callbackLib)] []

/-- The library needs `g`, the program defines it in a section, and the output does not offer it: it offers `v` alone. -/
example : ∃ log w w' f s, LinkRun callbackEnv worldLinker LinkSched.id (objectsOf callbackEnv worldLinker) log w w' f s ∧
    OwnName callbackEnv worldLinker b!"g" ∧ (∀ k, dynName f k ≠ some b!"g") ∧ (∃ d, symbolsNamed f b!"g" = [d] ∧ d.shndx ≠ 0) ∧
    ∃ y, Offers f 2 b!"v" y ∧ y.size = 8 := by
  obtain ⟨log, loaded, w, w', f, s, h1, h2, h3, hp⟩ := LinkRun.of_links (env := callbackEnv) (l := worldLinker) (fuel := 5)
    (P := fun w w' f s => (match symsNamed LinkSched.id.toSched w w' b!"g" with | [d] => d.shndx != 0 | _ => false) &&
      (dynName f 2 == some b!"v" && ((symsOf (bodyNamed f b!".dynsym"))[2]?).any fun y => y.size == 8 && y.info % 16 == 1)) LinkSched.id_valid
    (CleanFiles.of_table (by decide +kernel)) (by decide +kernel)
  have e := Linker.loaded_objects h3.calls rfl
  subst e
  rw [Bool.and_eq_true, Bool.and_eq_true, Option.any_eq_true] at hp
  obtain ⟨hg, hv, y, hy, hs⟩ := hp
  simp only [h3.good.symsNamed_eq] at hg
  simp only [Bool.and_eq_true, beq_iff_eq] at hv hs
  have own : OwnName callbackEnv worldLinker b!"g" :=
    .inr ⟨partFile, .head _, _, List.mem_of_getElem? (i := 1) rfl, rfl, by decide, by decide, by decide⟩
  refine ⟨log, w, w', f, s, h3, own, C130_own_violated h3 own (by decide), ?_, y, (C130_copy_partial h3 (by decide) hy hv hs.2).1, hs.1⟩
  split at hg
  · next d hd => exact ⟨d, hd, by simpa using hg⟩
  · cases hg

end Dld
