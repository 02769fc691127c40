import Verif.Lemmas.Listed
import Verif.Lemmas.DemoLink
import Verif.Props.File
/-! # The driver -/
namespace Dld
open Writer Spec StringTable

namespace Linker
variable {env : Env} {l : Linker} {sched : LinkSched} {fuel : Nat}

/-- an undefined symbol of the file was imported -/
theorem C59_imported {loaded : List Loaded} {log : List Call} {w w' : Writer} {file : Bytes} {secs : List Section}
    (hr : LinkRun env l sched loaded log w w' file secs) {y : ESym} (hy : y ∈ symsOf (bodyNamed file b!".symtab")) (h0 : y.shndx = 0)
    (hb : y.info / 16 = 1 ∨ y.info / 16 = 2) :
    ∃ n e path r, cstrAt (bodyNamed file b!".strtab") y.name = some n ∧ Op.dynsym e n path r ∈ opsOf log := by
  have hg := hr.good
  have hv := hg.run.valid
  obtain ⟨a, b, c, d, e, f, X⟩ := hg.tables
  have hb1 : bodyNamed file b!".symtab" = bodyOf file a.sh.toSpec := (sectionNamed_one X.msymtab.2.2).2.1
  have hb2 : bodyNamed file b!".strtab" = bodyOf file c.sh.toSpec := (sectionNamed_one X.mstrtab.2.2).2.1
  rw [hb1, X.syms] at hy
  rw [hb2, X.strs]
  obtain ⟨s', hs', rfl⟩ := List.mem_map.1 hy
  obtain ⟨k, hk⟩ := (SymbolTable.mem_sorted hv.symIter).1 hs'
  have hk : w'.symtab.get (.named k) = some s' := hk
  obtain ⟨ns, nd, T⟩ := hg.run.hist.tableFacts
  obtain ⟨n, hn, rfl, hname⟩ := hg.final_name T hk
  have hz : (0 : UInt8) ∉ n := by
    rcases (T.symNames n).1 hn with rfl | hm
    · simp
    · obtain ⟨s, sec, path, r, hop⟩ := mem_symNames_iff.1 hm
      exact hg.symNames.sym _ _ _ _ _ hop
  have hstr : cstrAt w.symstr.chunk s'.sym.toSpec.name = some n := by
    show cstrAt w.symstr.chunk s'.sym.st_name = some n
    rw [hname, u32_nameOff T.symstr hg.symstr hn]
    exact Holds.cstr T.symstr hn hz
  -- it has a dynamic symbol
  have hdyn : s'.dynamic ≠ none := by
    intro hnone
    have hmem : SymbolRef.named (u32 (nameOff ns n)) ∈ w'.undefinedSymbols sched.symIter := by
      refine (mem_undefinedSymbols hv.symIter).2 ⟨_, s', rfl, hk, ?_⟩
      have e0 : SHN_UNDEF = 0 := rfl
      have e1 : STB_GLOBAL = 1 := rfl
      have e2 : STB_WEAK = 2 := rfl
      have k1 : stBind s'.sym.st_info = 1 ∨ stBind s'.sym.st_info = 2 := hb
      have k2 : s'.sym.st_shndx = 0 := h0
      simp only [isUnresolved, Symbol.isGlobal, Symbol.isWeak, e0, e1, e2, hnone, k2]
      rcases k1 with h | h <;> simp [h]
    rw [hr.resolved] at hmem
    cases hmem
  obtain ⟨r, hd⟩ := Option.ne_none_iff_exists'.1 hdyn
  obtain ⟨st, hst⟩ := hg.run.stages
  have hlen : st.final.sections.length ≤ 65536 := by
    rw [hst]
    have := hg.run.secs_length
    have := hg.fit.count
    omega
  rw [← hst] at hk
  obtain ⟨s, hs, _, _, hsd⟩ := st.final_undefined hv hg.run.hist hlen hk h0
  rw [hd] at hsd
  obtain ⟨m, hor, e1, e, path, hop⟩ := T.inv.link _ _ _ hs hsd
  have hm : m ∈ ns := by
    rcases hor with rfl | ⟨_, _, _, _, _, e, s', sec', p', r', ho⟩
    · exact (T.symNames []).2 (.inl rfl)
    · exact (T.symNames m).2 (.inr (mem_symNames (by rw [e]; exact List.mem_append_left _ ho)))
  have : n = m := u32_nameOff_inj T.symstr hg.symstr hn hm (SymbolRef.named.inj e1)
  subst this
  exact ⟨n, e, path, _, hstr, hop⟩

/-- C59, first part: in the file of a successful link every global or weak symbol without a definition was found in a shared library. -/
theorem C59_resolved (hv : sched.Valid) (hc : CleanFiles env l) (hf : Fits env l sched fuel) {file : Bytes}
    (h : link env l sched fuel = some (.ok file)) {y : ESym} (hy : y ∈ symsOf (bodyNamed file b!".symtab")) (h0 : y.shndx = 0)
    (hb : y.info / 16 = 1 ∨ y.info / 16 = 2) :
    ∃ n p s, cstrAt (bodyNamed file b!".strtab") y.name = some n ∧ LibraryHas env l p s n := by
  obtain ⟨log, loaded, w, w', secs, hr⟩ := link_run hv hc hf h
  obtain ⟨n, e, path, r, hs, hop⟩ := C59_imported hr hy h0 hb
  exact ⟨n, path, e, hs, (hr.calls.dynsym hop).1⟩

/-- the string tables and the number of sections of this link fit -/
def TablesFit (env : Env) (l : Linker) (sched : LinkSched) (fuel : Nat) : Prop :=
  ∀ w w', gathered env l sched fuel = some (.ok w) → w.computeSections sched.toSched = .ok w' →
    NamesFit w ∧ w.symstr.totalLen < 2 ^ 32 ∧ w'.sections.length ≤ 65536

/-- C59, second part: the error about unresolved symbols lists names, each of which some linked file mentions without a definition, no linked file
defines globally, and no library or archive has. It lists all names that some linked file needs and none defines, unless the linker
itself gives them a value. -/
theorem C59_listed (hv : sched.Valid) (hc : CleanFiles env l) (hf : TablesFit env l sched fuel) {p : Path} {names : List Name}
    (h : link env l sched fuel = some (.error (.err p (.undefined names)))) :
    p = l.options.output ∧ names ≠ [] ∧ ∃ loaded log, Calls env l (NeededIn env l) loaded log ∧
      (∀ n ∈ names, (∃ s, MentionedIn loaded s n ∧ s.st_shndx = 0 ∧ (s.st_info / 16 = 1 ∨ s.st_info / 16 = 2)) ∧
        (∀ s, MentionedIn loaded s n → s.st_info / 16 = 1 → s.st_shndx = 0) ∧ NotInLibs env l n ∧ NotInArchives env l n) ∧
      (∀ n, n ∉ linkerSymbols → NotInLibs env l n → (∃ s, MentionedIn loaded s n ∧ (s.st_info / 16 = 1 ∨ s.st_info / 16 = 2)) →
        (∀ s, MentionedIn loaded s n → s.st_shndx = 0 ∧ s.st_info / 16 ≤ 2) → n ∈ names) := by
  rcases link_resolved hv h with ⟨e, hg, he⟩ | ⟨log, loaded, w, hg, h1, h2, h3, hfin⟩
  · cases he
    rcases gathered_safe hv hg with h | ⟨p', k', h, hb⟩
    · cases h
    · cases h; cases hb
  · rcases finish_error hfin with h | ⟨w', names', hcomp, hne, hnames, h⟩
    · cases h
    · cases h
      obtain ⟨f1, f2, f3⟩ := hf w w' hg hcomp
      have h4 := calls_spec hv h1 h2 f2
      obtain ⟨st, hst⟩ := computeSections_stages hcomp
      have hstr : w'.symstr = w.symstr := by
        rw [← hst, st.final_post.2.2.2.2.1, st.sorted_rest.2.1]
      obtain ⟨ns, nd, T⟩ := h2.tableFacts
      have back : ∀ k s', w'.symtab.get (.named k) = some s' → isUnresolved s' = true →
          ∃ s, w.symtab.get (.named k) = some s ∧ isUnresolved s = true := by
        intro k s' hs' hu
        have h0 : s'.sym.st_shndx = 0 := by
          have e0 : SHN_UNDEF = 0 := rfl
          simp only [isUnresolved, e0, Bool.and_eq_true, beq_iff_eq] at hu
          exact hu.1.1
        rw [← hst] at hs' f3
        obtain ⟨s, a1, a2, a3, a4⟩ := st.final_undefined hv.toSched h2 f3 hs' h0
        refine ⟨s, a1, ?_⟩
        unfold isUnresolved Symbol.isGlobal Symbol.isWeak at hu ⊢
        rw [a2, a3, a4, ← h0]; exact hu
      refine ⟨rfl, ?_, loaded, log, h4, ?_, ?_⟩
      · obtain ⟨r, hr⟩ := List.exists_mem_of_ne_nil _ hne
        obtain ⟨k, s', rfl, hs', hu⟩ := (mem_undefinedSymbols hv.toSched.symIter).1 hr
        obtain ⟨s, hs, _⟩ := back k s' hs' hu
        obtain ⟨n, hn, rfl, _⟩ := T.named k s hs
        have : w'.symbolName (.named (u32 (nameOff ns n))) = .ok (some n) := by
          simp only [symbolName, hstr, u32_nameOff T.symstr f2 hn]
          rw [Holds_name T.symstr hn]; rfl
        exact List.ne_nil_of_mem ((undefinedNames_mem hnames).2 ⟨_, hr, this⟩)
      · intro n hn
        obtain ⟨r, hr, hname⟩ := (undefinedNames_mem hnames).1 hn
        obtain ⟨k, s', rfl, hs', hu⟩ := (mem_undefinedSymbols hv.toSched.symIter).1 hr
        have hname : w.symstr.name k = some n := by
          rw [← hstr]
          simp only [symbolName, bind_ok, unwrap_ok] at hname
          obtain ⟨m, hm, e⟩ := hname
          cases e
          exact hm
        obtain ⟨s, hs, hu⟩ := back k s' hs' hu
        obtain ⟨g1, g2, g3⟩ := h2.unresolved f2 hs hu hname
        obtain ⟨n1, n2⟩ := h3 (.named k) ((mem_undefinedSymbols hv.toSched.symIter).2 ⟨k, s, rfl, hs, hu⟩) n ⟨k, rfl, hname⟩
        refine ⟨?_, ?_, ?_, ?_⟩
        · obtain ⟨s, sec, hm, hs⟩ := g1
          exact ⟨s, h4.mention_iff.2 ⟨sec, hm⟩, hs⟩
        · intro s hm hb
          obtain ⟨sec, hm⟩ := h4.mention_iff.1 hm
          exact g2 s sec hm hb
        · intro p hp data e hd he s hs hn
          exact n1 ⟨p, hp, data, e, hd, he, s, hs, hn⟩
        · intro p hp data ar hd ha
          cases hx : ar.memberOfSymbol n with
          | none => rfl
          | some m => exact absurd ⟨p, hp, data, ar, hd, ha, by rw [hx]; rfl⟩ n2
      · rintro n hl hlib ⟨s, hm, hb⟩ hall
        obtain ⟨sec, hm⟩ := h4.mention_iff.1 hm
        have hall' : ∀ s sec, Mention (opsOf log) s sec n → s.st_shndx = 0 ∧ s.st_info / 16 ≤ 2 := fun s sec hm => hall s (h4.mention_iff.2 ⟨sec, hm⟩)
        obtain ⟨hns, y, hy, hu⟩ := h2.wanted f2 T hm hb (fun s sec hm => (hall' s sec hm).1) (fun s sec hm => (hall' s sec hm).2) (by
          intro e path r hop
          obtain ⟨⟨hp, data, e', hd, he, hs, hn⟩, _⟩ := h4.dynsym hop
          exact hlib path hp data e' hd he e hs hn)
        obtain ⟨s', hs', hu'⟩ := st.keeps_undefined hv.toSched h2 (h4.good hc) f1 (T.ordinary f2 hns hl) (fun sr hin => by
          refine Nat.lt_of_not_le fun hle => ?_
          obtain ⟨s', n', path', hop', habs⟩ := mem_notesAt.1 hin
          have h3 : s'.st_info % 16 ≠ 3 := by
            intro e
            obtain ⟨k, i, e⟩ := h2.section_ref hop' e
            cases e
          have hr := (T.inv.sref _ _ _ _ _ hop').2 h3
          have hnn : n' = n := (u32_nameOff_inj T.symstr f2 hns ((T.symNames n').2 (.inr (mem_symNames hop'))) (SymbolRef.named.inj hr)).symm
          subst hnn
          have hmm : Mention (opsOf log) s' (some sr) n' := ⟨⟨_, _, hop'⟩, h3⟩
          exact h4.undefined_unattached hc hmm (hall' _ _ hmm).1 sr ⟨rfl, habs, fun sh d hp => by
            rw [h2.null_push hp] at hle
            exact absurd hle (by decide)⟩) hy hu
        rw [hst] at hs'
        refine (undefinedNames_mem hnames).2 ⟨_, (mem_undefinedSymbols hv.toSched.symIter).2 ⟨_, s', rfl, hs', hu'⟩, ?_⟩
        simp only [symbolName, hstr, u32_nameOff T.symstr f2 hns]
        rw [Holds_name T.symstr hns]; rfl

end Linker

/-- a library symbol in the file -/
example : ∃ file y, Linker.link demoEnv demoLinker LinkSched.id 5 = some (.ok file) ∧ y ∈ symsOf (bodyNamed file b!".symtab") ∧ y.shndx = 0 ∧
    y.info / 16 = 1 ∧ ∃ n p s, cstrAt (bodyNamed file b!".strtab") y.name = some n ∧ LibraryHas demoEnv demoLinker p s n := by
  have hl : links demoEnv demoLinker LinkSched.id 5 (fun w w' _ _ => (symsNamed Sched.id w w' b!"f").any fun y => y.shndx == 0 && y.info / 16 == 1) = true := by
    decide +kernel
  obtain ⟨log, loaded, w, w', f, s, h1, h2, h3, hp⟩ := LinkRun.of_links LinkSched.id_valid demo_files hl
  have e := h3.good.symsNamed_eq b!"f"
  rw [show LinkSched.id.toSched = Sched.id from rfl] at e
  rw [e, List.any_eq_true] at hp
  obtain ⟨y, hy, hp⟩ := hp
  simp only [Bool.and_eq_true, beq_iff_eq] at hp
  have hy := (List.mem_filter.1 hy).1
  exact ⟨f, y, h1, hy, hp.1, hp.2, Linker.C59_resolved LinkSched.id_valid demo_files h2 h1 hy hp.1 (.inl hp.2)⟩

/-- without library and archive -/
def bareLinker : Linker := { options := Options.default, objects := [mainPath], archives := [] }

theorem bare_files : CleanFiles demoEnv bareLinker := CleanFiles.of_table (by decide +kernel)

example : ∃ names, Linker.link demoEnv bareLinker LinkSched.id 5 = some (.error (.err bareLinker.options.output (.undefined names))) ∧
    b!"f" ∈ names ∧ b!"g" ∈ names ∧ Linker.TablesFit demoEnv bareLinker LinkSched.id 5 ∧ NotInLibs demoEnv bareLinker b!"f" := by
  refine ⟨[b!"f", b!"g"], by decide +kernel, by decide, by decide, ?_, by intro p hp; cases hp⟩
  have h : (match Linker.gathered demoEnv bareLinker LinkSched.id 5 with
      | some (.ok w) => match w.computeSections Sched.id with
        | .ok w' => decide (w.shstr.totalLen < 2 ^ 32) && decide (w.symstr.totalLen < 2 ^ 32) && decide (w'.sections.length ≤ 65536)
        | .error _ => false
      | _ => false) = true := by decide +kernel
  intro w w' hg hc
  rw [hg] at h
  simp only [] at h
  have hc : w.computeSections Sched.id = .ok w' := hc
  rw [hc] at h
  simp only [Bool.and_eq_true, decide_eq_true_eq] at h
  exact ⟨h.1.1, h.1.2, h.2⟩

end Dld
