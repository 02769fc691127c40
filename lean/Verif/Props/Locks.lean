import Verif.Lemmas.Locks
/-! # C74: the section locks -/
namespace Dld
open Writer

variable {opts : Options} {ops : List Op} {sched : Sched} {w w' : Writer} {file : Bytes} {secs : List Section}

theorem origins_link : ∀ (h : HashStyle), ∀ o ∈ origins h, o.2.1 ≠ some o.1 := by intro h; cases h <;> decide

theorem origins_dynsym : ∀ (h : HashStyle), ∀ o ∈ origins h, o.1 = P.dynsym → o.2.2.2.1 = SHT_DYNSYM := by intro h; cases h <;> decide

/-- C74, `compute_sections`: none of its steps waits for a lock it holds itself. -/
theorem Hist.computeLocks_calm (h : Hist opts ops w) (hv : sched.Valid) (hcomp : w.computeSections sched = .ok w')
    (hc : CleanInputs ops) (hn : NamesFit w) (cmps : List (Nat × Nat)) :
    ∃ t, computeLocks opts.hashStyle sched cmps w = .ok t ∧ Calm [] t := by
  obtain ⟨st, rfl⟩ := computeSections_stages hcomp
  have hsf := h.secFacts
  have hu := h.untouched
  have i0 := st.placed_ids hv hsf hu
  have e1 : st.entries.sections = st.placed.sections := by rw [addDynEntries_rest st.hentries]; rfl
  have i1 : SameIds w st.patched.sections := i0.congr (by rw [(patchPlt_post st.hpatch).1, e1])
  have i2 : SameIds w st.special.sections := i1.congr (special_post st.hspecial).1
  have hsp := st.hspecial
  simp only [handleSpecialSymbols, bind_ok] at hsp
  obtain ⟨gp, _, symstrSec, hsymstr, shstrSec, hshstr, _⟩ := hsp
  have hrl := st.hreloc
  simp only [handleRelocations, bind_ok] at hrl
  obtain ⟨_, _, _, _, symSec, hsym, dynsymSec, hdynsym, _⟩ := hrl
  have hshtab : st.patched.shstr = w.shstr := by
    rw [(patchPlt_post st.hpatch).2]; show st.entries.shstr = _
    rw [addDynEntries_rest st.hentries]; show st.sorted.shstr = _
    exact st.sorted_rest.1
  refine ⟨scanLocks w ++ resizeLocks ++ expandLocks opts.hashStyle st.filled ++ dynLocks sched (st.filled.expandRest sched) ++
    sortLocks cmps st.dynamic ++ programLocks st.sorted ++ entriesLocks st.placed ++ patchLocks ++
    specialLocks st.patched [symstrSec.sh.sh_name, shstrSec.sh.sh_name] ++
    relocLocks st.special [symSec.sh.sh_name, dynsymSec.sh.sh_name] ++ tableLocks ++ finishLocks st.tables, ?_, ?_⟩
  · simp only [computeLocks, bind_ok]
    exact ⟨_, st.hscan, _, st.hfill, _, st.hdynrel, _, st.hdynamic, _, st.hsort, _, st.hentries, _, st.hpatch, _, hsymstr, _, hshstr,
      _, st.hspecial, _, hsym, _, hdynsym, _, st.hreloc, _, st.htables, rfl⟩
  · refine .append (.append (.append (.append (.append (.append (.append (.append (.append (.append (.append ?_ ?_) ?_) ?_) ?_) ?_) ?_) ?_) ?_) ?_) ?_) ?_
    · refine scanLocks_calm fun s hs hp => hc.no_chunks h hs ?_ ?_ ?_ <;> rcases hp with hp | hp <;> rw [hp] <;> decide
    · decide
    · refine expandLocks_calm fun s hs hp => ?_
      obtain ⟨t, ht, e⟩ := mem_of_map_eq st.filled_tag hs
      simp only [tag, Prod.mk.injEq] at e
      obtain ⟨f1, -, -, -, f5, -⟩ := e
      have ho := (hsf.known t ht).origin_of_ptr (by rw [← f1, hp]; decide)
      have := origins_dynsym _ _ ho (by show t.ptr = _; rw [← f1, hp])
      rw [f5]; exact this
    · exact dynLocks_calm
    · exact sortLocks_calm _
    · exact programLocks_calm
    · exact entriesLocks_calm
    · decide
    · refine specialLocks_calm (fun s hs hne => ?_) (fun s hs n hn' e => ?_)
      · simp only [List.mem_cons, List.not_mem_nil, or_false, not_or] at hne
        exact ⟨i1.ne hsymstr hs hne.1, i1.ne hshstr hs hne.2⟩
      · intro hp
        obtain ⟨t, ht, f1, _, f3⟩ := i1.src s hs
        obtain ⟨w0, pn, h0, hI⟩ := h.winv
        have hname : nameOf w t = some (ptrName P.sym) :=
          (hI.name_iff h0 hn ht (base_has _ _ (by decide))).2 (by rw [← f1, hp])
        rw [hshtab, f3] at e
        have := ((hI.named h0 hn ht hname).1 n).1 e
        rcases hn' with rfl | rfl <;> exact absurd this (by decide)
    · refine relocLocks_calm fun s hs hr => ?_
      simp only [relocatable, Bool.not_eq_true', List.contains_eq_mem, List.mem_cons, List.not_mem_nil, or_false, decide_eq_false_iff_not,
        not_or] at hr
      exact ⟨i2.ne hsym hs hr.1, i2.ne hdynsym hs hr.2⟩
    · decide
    · exact finishLocks_calm

/-- C74, partial: a link of objects that do not name sections like the writer's own, without trace logging,
never waits for a section lock that it holds itself, and ends with none held. `cmps` are the comparisons the
sort makes. Missing: it does with trace logging (`C74_trace_violated`), and with objects that have a section
called `.symtab`, `.strtab` or `.plt` (`C74_named_violated`). -/
theorem C74_locks_partial (R : Run opts ops sched w w' file secs) (hc : CleanInputs ops) (hr : RefsOk ops) (hn : NamesFit w)
    (cmps : List (Nat × Nat)) :
    ∃ t, linkLocks false opts ops sched cmps = .ok t ∧ runLocks [] t = some [] := by
  obtain ⟨w0, pn, h0, hI⟩ := R.hist.winv
  have href : ∀ s sr n path y, Op.sym s (some sr) n path y ∈ ops → sr.ptr ≠ P.symstr ∧ sr.ptr ≠ P.sym := by
    intro s sr n path y hm
    obtain ⟨m, sh, d, hp⟩ := hr.sym _ _ _ _ _ hm
    rcases R.hist.ref_ptr hc hp with e | e
    · rw [e]; decide
    · have a : P.symstr < P.first := by decide
      have b : P.sym < P.first := by decide
      exact ⟨by omega, by omega⟩
  obtain ⟨t1, h1, c1⟩ := R.hist.opsLocks_calm (tr := false) h0 href
  obtain ⟨t2, h2, c2⟩ := R.hist.computeLocks_calm R.valid R.compute hc hn cmps
  refine ⟨newLocks ++ t1 ++ t2 ++ writeLocks false w', ?_, ?_⟩
  · simp only [linkLocks, bind_ok]
    exact ⟨w0, h0, t1, h1, w, R.hist.run_ops, t2, h2, w', R.compute, rfl⟩
  · refine Calm.append (.append (.append (by decide) c1) c2) (writeLocks_calm fun s hs hl => ?_)
    obtain ⟨st, rfl⟩ := R.stages
    obtain ⟨t, ht, f1, f2, _⟩ := ((st.placed_ids R.valid R.hist.secFacts R.hist.untouched).congr st.final_post.1).src s hs
    rcases R.hist.secFacts.known t ht with ho | ⟨_, _, hnone, _⟩
    · exact origins_link _ _ ho (by show t.link = some t.ptr; rw [← f1, ← f2]; exact hl)
    · rw [← f2, hl] at hnone; cases hnone

theorem runLocks_none {held : Held} {a b : List LockEv} (h : runLocks held a = none) : runLocks held (a ++ b) = none := by
  rw [runLocks_append, h]; rfl

/-- C74, violated: with trace logging every link that gets as far as writing its file hangs, since the name of
`.shstrtab` is read from `.shstrtab` while it is being written. -/
theorem C74_trace_violated (R : Run opts ops sched w w' file secs) (cmps : List (Nat × Nat)) {t : List LockEv}
    (ht : linkLocks true opts ops sched cmps = .ok t) : runLocks [] t = none := by
  simp only [linkLocks, bind_ok] at ht
  obtain ⟨w0, _, t1, _, w1, h1, t2, _, w2, h2, h3⟩ := ht
  cases h1.symm.trans R.hist.run_ops
  cases h2.symm.trans R.compute
  cases h3
  rw [runLocks_append]
  cases runLocks [] (newLocks ++ t1 ++ t2) with
  | none => rfl
  | some held =>
    rw [Option.bind_some]
    obtain ⟨s, hs, hp⟩ : ∃ s ∈ w'.sections, s.ptr = P.shstr := by
      obtain ⟨st, rfl⟩ := R.stages
      obtain ⟨s0, hs0, hp⟩ := R.hist.secFacts.has P.shstr (base_has _ _ (by decide))
      obtain ⟨s, hs, hf⟩ := (st.sources R.valid R.hist.secFacts R.hist.untouched).2 s0 hs0
      exact ⟨s, hs, hf.ptr.trans hp⟩
    unfold writeLocks
    refine runLocks_none ?_
    obtain ⟨a, b, e⟩ := List.append_of_mem hs
    rw [e, List.flatMap_append, runLocks_append]
    cases runLocks held _ with
    | none => rfl
    | some held =>
      rw [Option.bind_some, List.flatMap_cons]
      refine runLocks_none ?_
      simp only [wr, rd, if_true, List.cons_append, runLocks, LockEv.step, hp]
      by_cases hh : (P.shstr, true) ∈ held ∨ (P.shstr, false) ∈ held
      · rw [if_pos hh]
      · rw [if_neg hh]; simp

/-- an object with a section called `.symtab` that holds a symbol -/
def tabledOps : List Op :=
  [.push b!".symtab" { sh_type := 1, sh_flags := 2, sh_size := 1, sh_addralign := 1 } (some [0]) ⟨P.sym, 0⟩,
   .sym { st_name := 0, st_info := 0x10, st_other := 0, st_shndx := 1, st_value := 0, st_size := 0 } (some ⟨P.sym, 0⟩) b!"_start" demoPath
     (.named 1)]

/-- an object with a section called `.plt` that calls a function of a library -/
def pltCallOps : List Op :=
  [.push b!".plt" { sh_type := 1, sh_flags := 6, sh_size := 48, sh_addralign := 1 } (some (List.replicate 48 0)) ⟨P.plt, 0⟩,
   .sym { st_name := 0, st_info := 0x10, st_other := 0, st_shndx := 0, st_value := 0, st_size := 0 } none b!"puts" demoPath (.named 1),
   .reloc { r_offset := 0, r_info := R_X86_64_PLT32, r_addend := 0 } (.named 1) ⟨P.plt, 0⟩ demoPath,
   .dynsym { st_name := 0, st_info := 0x12, st_other := 0, st_shndx := 1, st_value := 0, st_size := 0 } b!"puts" demoPath (.named 22)]

/-- whether a link hangs -/
def hangs (trace : Bool) (ops : List Op) : Bool :=
  match linkLocks trace Options.default ops Sched.id [] with
  | .ok t => runLocks [] t == none
  | .error _ => false

/-- C74, violated: without logging, a symbol in a section called `.symtab`, or a call of a library's function
from a section called `.plt`, hangs the link. -/
theorem C74_named_violated : hangs false tabledOps = true ∧ hangs false pltCallOps = true := by decide +kernel

example : hangs true demoOps = true ∧ hangs false demoOps = false := by decide +kernel

example : ∃ t, linkLocks false Options.default demoOps Sched.id [(16, 17)] = .ok t ∧ runLocks [] t = some [] := by
  obtain ⟨w, w', f, s, G, -⟩ := GoodRun.of_runs (P := fun _ _ _ _ => true) Sched.id_valid demo_good
    (show runs Options.default demoOps Sched.id _ = true by decide +kernel)
  exact C74_locks_partial G.run G.good.clean G.good.refs G.names _

end Dld
