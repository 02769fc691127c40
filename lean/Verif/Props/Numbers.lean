import Verif.Lemmas.Fits3
import Verif.Props.Progress
/-! # C97: no number is cut off in the output of well-formed inputs of moderate size -/
namespace Dld
open Writer Spec StringTable

variable {opts : Options} {ops : List Op} {sched : Sched} {w w' : Writer} {file : Bytes} {secs : List Section} {F : List Nat} {V K : Nat}

/-- **C97.** Whenever a link of well-formed inputs of moderate size succeeds, reading its output as an ELF file gives exactly the numbers that the linker computed,
although they are stored in fields of 1 to 8 bytes: the counts of the file header are those of the sections and segments and its entry point is the address computed, every
section and program header has the address, offset and size computed, and every entry of the symbol tables and of the relocation tables has the numbers computed.
The hypotheses only speak about the calls: they are well-formed (`WellFormed`), their numbers come from ELF fields (`FieldsFit`), and section names contain no NUL. -/
theorem C97_exact (r : Run opts ops sched w w' file secs) (D : WellFormed opts ops w F V K) (hF : FieldsFit ops) (hc : NamesClean ops) :
    (decodeEhdr file).shnum = secs.length ∧ (decodeEhdr file).phnum = w'.programHeaders.length ∧ (decodeEhdr file).entry = w'.eh.e_entry ∧
    file.length = (decodeEhdr file).shoff + 64 * secs.length ∧
    shdrs file = (secs.map fun s => s.sh.toSpec) ∧ phdrs file = (w'.programHeaders.map fun p => p.toSpec) ∧
    ∃ symtab dynsym relaPlt relaDyn, sectionsNamed file b!".symtab" = [symtab] ∧ sectionsNamed file b!".dynsym" = [dynsym] ∧
      sectionsNamed file b!".rela.plt" = [relaPlt] ∧ sectionsNamed file b!".rela.dyn" = [relaDyn] ∧
      symsOf (bodyOf file symtab) = (w'.symtab.sorted sched.symIter).map (·.sym.toSpec) ∧
      symsOf (bodyOf file dynsym) = (w'.dynsym.sorted sched.dynIter).map (·.sym.toSpec) ∧
      relasOf (bodyOf file relaPlt) = w'.pltRels.map (·.toSpec) ∧
      relasOf (bodyOf file relaDyn) = w'.dynRels.map (·.toSpec) := by
  have h := r.goodLink D hF hc
  have hr := r.reads h.good h.names h.fit
  obtain ⟨a, b, c, d, e, f, T⟩ := h.tables
  refine ⟨by rw [hr.ehdr], by rw [hr.ehdr], by rw [hr.ehdr], by rw [hr.ehdr]; exact hr.length, hr.shdrs, hr.phdrs, a.sh.toSpec, b.sh.toSpec, e.sh.toSpec, f.sh.toSpec,
    T.msymtab.2.2, T.mdynsym.2.2, T.mrelaPlt.2.2, T.mrelaDyn.2.2, T.syms, T.dyns, T.plts, T.rels⟩

/-- **C97, with the link.** If moreover no relocation lies in a section that is not loaded, the link succeeds, and its output meets everything that the other properties
of links assume of an output (`GoodLink`): they hold for all such inputs. -/
theorem C97_link (h : Hist opts ops w) (hv : sched.Valid) (D : Digestible opts ops w F V K) (hF : FieldsFit ops) (hc : NamesClean ops) :
    ∃ w' file secs, GoodLink opts ops sched w w' file secs := by
  obtain ⟨w', f, s, hr⟩ := h.digest hv D
  exact ⟨w', f, s, hr.goodLink D.toWellFormed hF hc⟩

/-- **C97, with the references.** From the calls alone: the link succeeds, and every direct reference to a symbol that no library provides
leads to the definition that decides what the symbol means. -/
theorem C97_references (h : Hist opts ops w) (hv : sched.Valid) (D : Digestible opts ops w F V K) (hF : FieldsFit ops) (hc : NamesClean ops)
    {a b a' b' : List Op} {m m' n : Name} {off : Nat} {rel : Rela} {y r : SymbolRef} {s : Sym} {sr : SectionRef} {path : Path} {sh : SectionHeader} {d : Option Bytes}
    (hr : RefersAt ops m off rel y) (hm : m ≠ []) (hy : Refers ops y n) (hi : ¬ ImportedIn ops n)
    (e : ops = a ++ Op.sym s (some sr) n path r :: b) (hn : n ≠ []) (hl : n ∉ linkerSymbols) (hd : Decides a s sr n b)
    (e' : ops = a' ++ Op.push m' sh d sr :: b') (hm' : m' ≠ []) (hz : d.isSome ∨ pushesOf m' a' = []) :
    ∃ w' file secs o o', w.computeSections sched = .ok w' ∧ w'.writeToDisk sched = .ok (file, secs) ∧
      sectionsNamed file m = [o] ∧ sectionsNamed file m' = [o'] ∧ Reaches file o off rel (o'.addr + offsetOf m' a' + s.st_value) := by
  obtain ⟨w', f, secs, G⟩ := C97_link h hv D hF hc
  obtain ⟨o, o', h1, h2, h3⟩ := C88_to_definition G hr hm hy hi e hn hl hd e' hm' hz
  exact ⟨w', f, secs, o, o', G.run.compute, G.run.write, h1, h2, h3⟩

/-- a check of `FieldsFit` -/
def fieldsOps (ops : List Op) : Bool :=
  ops.all fun
    | .push _ sh _ _ => decide sh.Fits
    | .sym s _ _ _ _ => decide s.Fits
    | .dynsym s _ _ _ => decide s.Fits
    | _ => true

theorem Spec.FieldsFit.of_check (h : fieldsOps ops = true) : FieldsFit ops := by
  simp only [fieldsOps, List.all_eq_true] at h
  exact ⟨fun _ _ _ _ hm => by simpa using h _ hm, fun _ _ _ _ _ hm => by simpa using h _ hm, fun _ _ _ _ hm => by simpa using h _ hm⟩

/-- `C97_exact` and `C97_link`: code and data of two objects that refer to each other and to a library -/
example : ∃ w, Hist Options.default (refOps (.named 10)) w ∧ Digestible Options.default (refOps (.named 10)) w [0, 3, 6] 100 21 ∧
    FieldsFit (refOps (.named 10)) ∧ NamesClean (refOps (.named 10)) := by
  have : (match runOps Options.default (refOps (.named 10)) with | .ok _ => true | _ => false) = true := by decide +kernel
  split at this
  · next w h =>
    exact ⟨w, .of_run h, ⟨.of_check (by decide +kernel) (by decide) (by decide +kernel), .of_check (by decide +kernel)⟩,
      .of_check (by decide +kernel), (goodOps_ok (by decide +kernel)).2⟩
  · cases this

/-- `C97_references`: the call of `f` in the second `.text`, with the definition of `f` in the first -/
example (q : SymbolRef) : RefersAt (refOps q) b!".text" 17 { r_offset := 1, r_info := 2 ^ 32 + 4, r_addend := -4 } (.named 1) ∧
    Refers (refOps q) (.named 1) b!"f" ∧ ¬ ImportedIn (refOps q) b!"f" ∧
    refOps q = (refOps q).take 2 ++ Op.sym (demoSym STT_FUNC 1 8 4) (some ⟨16, 0⟩) b!"f" demoPath (.named 1) :: (refOps q).drop 3 ∧
    ∃ sh d, refOps q = (refOps q).take 1 ++ Op.push b!".text" sh (some d) ⟨16, 0⟩ :: (refOps q).drop 2 :=
  ⟨ref_text q (rel := { r_offset := 1, r_info := 2 ^ 32 + 4, r_addend := -4 }) (by simp [relocsIn, refOps]), (ref_refers q).1, (ref_imported q).2.2, rfl, _, _, rfl⟩

end Dld
