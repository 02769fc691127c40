import Verif.Spec.Marked
import Verif.Props.Ctors
/-! # C143: sections that do not belong in an executable -/
namespace Dld
open Writer Spec StringTable SymbolTable

variable {env : Env} {l : Linker} {sched : LinkSched} {loaded pre mid post : List Loaded} {log : List Call} {w w' : Writer} {file : Bytes}
  {secs : List Section} {x y : Loaded}

theorem sum_before {L : List (SectionHeader × Nat)} {sh : SectionHeader} {i : Nat} (h : (sh, i) ∈ L) :
    ((L.filter fun s => s.2 < i).map (·.1.sh_size)).sum + sh.sh_size ≤ (L.map (·.1.sh_size)).sum := by
  have mono : ∀ L : List (SectionHeader × Nat), ((L.filter fun s => s.2 < i).map (·.1.sh_size)).sum ≤ (L.map (·.1.sh_size)).sum := by
    intro L
    induction L with
    | nil => exact Nat.le_refl _
    | cons a L ih =>
      rw [List.filter_cons]
      split
      · simp only [List.map_cons, List.sum_cons]; omega
      · simp only [List.map_cons, List.sum_cons]; omega
  induction L with
  | nil => cases h
  | cons a L ih =>
    rcases List.mem_cons.1 h with rfl | h
    · have := mono L
      simp only [List.filter_cons, Nat.lt_irrefl, decide_false, Bool.false_eq_true, if_false, List.map_cons, List.sum_cons]
      omega
    · have := ih h
      rw [List.filter_cons]
      split
      · simp only [List.map_cons, List.sum_cons]; omega
      · simp only [List.map_cons, List.sum_cons]; omega

/-- a section lies before everything that later files put into the output section -/
theorem placeOf_before {i j : Nat} {sh : SectionHeader} {n : Name} (S : SectionOf x i sh n) :
    placeOf pre x n i + sh.sh_size ≤ placeOf (pre ++ x :: mid) y n j := by
  have h := sum_before (L := x.elf.named n) (sh := sh) (i := i)
    (List.mem_filter.2 ⟨ElfFile.mem_copied.2 ⟨S.header, S.copied⟩, by simp [S.name]⟩)
  unfold placeOf
  simp only [List.map_append, List.sum_append, List.map_cons, List.sum_cons, ElfFile.bytesOf, ElfFile.bytesBefore] at h ⊢
  omega

theorem LinkRun.copiedTo (R : LinkRun env l sched loaded log w w' file secs) (hc : CleanFiles env l) (e : loaded = pre ++ x :: post) {i : Nat}
    {sh : SectionHeader} {n : Name} (S : SectionOf x i sh n) (h8 : sh.sh_type ≠ 8) : CopiedTo file n (placeOf pre x n i) x i sh := by
  obtain ⟨o, ho, _, hb⟩ := C111_contents R hc e S
  obtain ⟨_, hlen, hby⟩ := hb h8
  exact ⟨o, ho, by rw [hlen]; exact R.place_le e S ho, hby⟩

/-- **C143** is violated by every link with COMDAT groups: if two files have a group with the same signature, the sections of both are in the output,
one behind the other. -/
theorem C143_comdat_violated (R : LinkRun env l sched loaded log w w' file secs) (hc : CleanFiles env l) (e : loaded = pre ++ x :: mid ++ y :: post) {sig : Name}
    {mx my : List Nat} (_ : ComdatGroup x sig mx) (_ : ComdatGroup y sig my) {i j : Nat} (_ : i ∈ mx) (_ : j ∈ my) {sh sh' : SectionHeader} {n : Name}
    (S : SectionOf x i sh n) (S' : SectionOf y j sh' n) (h8 : sh.sh_type ≠ 8) :
    ∃ p q, p + sh.sh_size ≤ q ∧ CopiedTo file n p x i sh ∧ CopiedTo file n q y j sh' := by
  have h8' : sh'.sh_type ≠ 8 := fun h => h8 ((hc.nobits _ _ _ _ n (R.calls.inputAt (show x ∈ loaded by rw [e]; simp)).isInput
    ⟨List.mem_of_getElem? S.header, S.copied, S.name⟩ (R.calls.inputAt (show y ∈ loaded by rw [e]; simp)).isInput
    ⟨List.mem_of_getElem? S'.header, S'.copied, S'.name⟩).2 h)
  exact ⟨placeOf pre x n i, placeOf (pre ++ x :: mid) y n j, placeOf_before S, R.copiedTo hc (post := mid ++ y :: post) (by rw [e]; simp) S h8,
    R.copiedTo hc e S' h8'⟩

/-- **C143** is violated by every section with contents that the format says to leave out: it is in the output. -/
theorem C143_marked_violated (R : LinkRun env l sched loaded log w w' file secs) (hc : CleanFiles env l) (hx : x ∈ loaded) {i : Nat} {sh : SectionHeader} {n : Name}
    (S : SectionOf x i sh n) (_ : ForLinkersOnly sh) (h8 : sh.sh_type ≠ 8) : ∃ p, CopiedTo file n p x i sh := by
  obtain ⟨pre, post, e⟩ := List.append_of_mem hx
  exact ⟨_, R.copiedTo hc e S h8⟩

/-- **C143, the part that holds.** Symbol tables, string tables, relocations and dynamic tables of the files are not copied: apart from the linker's own
sections, every section of the output has the name of a section of another type of a linked file, and is exactly as long as all these together.
Missing: group tables, duplicate groups and sections marked with `SHF_EXCLUDE`. -/
theorem C143_marked_partial (R : LinkRun env l sched loaded log w w' file secs) (hc : CleanFiles env l) {o : EShdr} (ho : o ∈ shdrs file) {n : Name}
    (hn : Spec.nameOf file o = some n) (hne : n ≠ []) (hr : n ∉ reservedNames) :
    (∃ x ∈ loaded, ∃ i sh, SectionOf x i sh n) ∧ o.size = (loaded.map fun x => x.elf.bytesOf n).sum := by
  have G := R.good.toGoodRun
  obtain ⟨w0, pn, h0, hI⟩ := G.run.hist.winv
  rw [(G.run.reads G.good G.names G.fit).shdrs] at ho
  obtain ⟨t, ht, rfl⟩ := List.mem_map.1 ho
  have hnt : Dld.nameOf w t = some n := by rw [← G.run.reads_name G.good G.clean G.names G.fit ht]; exact hn
  obtain ⟨s, hs, e⟩ := G.run.origin G.good.flags ht
  have e2 : Dld.nameOf w t = Dld.nameOf w s := by unfold Dld.nameOf; rw [show t.sh.sh_name = s.sh.sh_name from congrArg (·.2.2.2.1) e]
  have key : ∃ x ∈ loaded, ∃ i sh, SectionOf x i sh n := by
    rcases hI.name_ptr h0 G.names hs with ⟨h1, h2⟩ | ⟨_, n', hm, h2⟩
    · exfalso
      rw [← e2, hnt] at h2
      have h2 := Option.some.inj h2
      have : ∀ p < P.first, ptrName p = [] ∨ ptrName p ∈ reservedNames := by decide
      rcases this _ h1 with h | h
      · exact hne (h2.trans h)
      · exact hr (h2 ▸ h)
    · rw [← e2, hnt] at h2
      cases h2
      obtain ⟨_, sh, d, r, h4⟩ := hI.pushed_name hm
      obtain ⟨y, hy, j, g1, g2, g3, _⟩ := R.calls.push h4
      exact ⟨y, hy, j, sh, g1, g2, g3, hne⟩
  refine ⟨key, ?_⟩
  obtain ⟨x, hx, i, sh, S⟩ := key
  obtain ⟨pre, post, e⟩ := List.append_of_mem hx
  obtain ⟨o', ho', hsz, _⟩ := C111_contents R hc e S
  have : t.sh.toSpec ∈ sectionsNamed file n := by
    rw [G.named]
    exact List.mem_map.2 ⟨t, List.mem_filter.2 ⟨ht, by simp [hnt]⟩, rfl⟩
  rw [ho'] at this
  rw [List.mem_singleton.1 this]
  exact hsz

/-! ### A concrete link -/

/-- code, and an inline function in a COMDAT group; both objects have it -/
def inlineElf (start : Name) : ElfFile where
  isObjectFile := true
  sectionHeaders :=
    [{}, { demoSh 17 0 8 4 with sh_name := 1, sh_info := 2 }, { demoSh SHT_PROGBITS 6 4 4 with sh_name := 8, sh_offset := 8 },
      { demoSh SHT_PROGBITS 0x206 4 4 with sh_name := 14, sh_offset := 12 }, { demoSh SHT_PROGBITS 0x80000000 4 1 with sh_name := 21, sh_offset := 16 }]
  secName := AMap.get? [(0, []), (1, b!".group"), (8, b!".text"), (14, b!".text.f"), (21, b!".note")]
  syms := [{}, { demoSym STT_FUNC 2 0 4 with st_name := 1 }, { weakSym STT_FUNC 3 0 4 with st_name := 10 }]
  symName := AMap.get? [(0, []), (1, start), (10, b!"f")]
  shdrRelocs := []
  dynsyms := []
  dynName := fun _ => none

/-- the table of the group, the code, the function and a note for the linker -/
def inlineBytes (c : UInt8) : Bytes := [1, 0, 0, 0, 3, 0, 0, 0, c, c, c, 0xc3, 1, 2, 3, 4, 5, 6, 7, 8]

def inlineEnv : Env :=
  tableEnv [(mainPath, inlineBytes 0x90), (Linker.calleePath, inlineBytes 0x91)]
    [(inlineBytes 0x90, inlineElf b!"_start"), (inlineBytes 0x91, inlineElf b!"g")] []

def inlineLinker : Linker := { options := Options.default, objects := [mainPath, Linker.calleePath], archives := [] }

theorem inline_clean : CleanFiles inlineEnv inlineLinker := CleanFiles.of_table (by decide +kernel)

def inlineMain : Loaded := ⟨.object 0, mainPath, inlineBytes 0x90, inlineElf b!"_start"⟩
def inlineOther : Loaded := ⟨.object 1, Linker.calleePath, inlineBytes 0x91, inlineElf b!"g"⟩

theorem inline_group {x : Loaded} (hx : x = inlineMain ∨ x = inlineOther) : ComdatGroup x b!"f" [3] := by
  rcases hx with rfl | rfl <;>
  · refine ⟨1, _, _, rfl, rfl, rfl, rfl, rfl, ?_⟩
    intro k v h
    match k, h with
    | 0, h => cases h; decide
    | 1, h => cases h; decide
    | k + 2, h => cases h

/-- Both objects have the function in a group with signature `f`, and a note that is only for linkers. The executable has the function twice and the note. -/
example : ∃ sched loaded log w w' file secs, ∃ _ : LinkRun inlineEnv inlineLinker sched loaded log w w' file secs,
    (∃ p q, p + 4 ≤ q ∧ CopiedTo file b!".text.f" p inlineMain 3 { demoSh SHT_PROGBITS 0x206 4 4 with sh_name := 14, sh_offset := 12 } ∧
      CopiedTo file b!".text.f" q inlineOther 3 { demoSh SHT_PROGBITS 0x206 4 4 with sh_name := 14, sh_offset := 12 }) ∧
    (∃ p, CopiedTo file b!".note" p inlineMain 4 { demoSh SHT_PROGBITS 0x80000000 4 1 with sh_name := 21, sh_offset := 16 }) ∧
    (∃ p, CopiedTo file b!".group" p inlineMain 1 { demoSh 17 0 8 4 with sh_name := 1, sh_info := 2 }) ∧
    bodyNamed file b!".text.f" = [1, 2, 3, 4, 1, 2, 3, 4] := by
  obtain ⟨log, loaded, w, w', f, s, h1, h2, R, hp⟩ := LinkRun.of_links LinkSched.id_valid inline_clean
    (P := fun _ _ f _ => bodyNamed f b!".text.f" == [1, 2, 3, 4, 1, 2, 3, 4]) (fuel := 5) (by decide +kernel)
  have hl : loaded = [] ++ inlineMain :: [] ++ inlineOther :: [] := (Linker.loaded_objects R.calls rfl).trans rfl
  have hm : inlineMain ∈ loaded := by rw [hl]; simp
  exact ⟨_, _, _, _, _, _, _, R,
    C143_comdat_violated R inline_clean hl (inline_group (.inl rfl)) (inline_group (.inr rfl)) (i := 3) (j := 3) (by simp) (by simp)
      ⟨rfl, by decide, rfl, by decide⟩ ⟨rfl, by decide, rfl, by decide⟩ (by decide),
    C143_marked_violated R inline_clean hm (i := 4) ⟨rfl, by decide, rfl, by decide⟩ (.inl (by decide)) (by decide),
    C143_marked_violated R inline_clean hm (i := 1) ⟨rfl, by decide, rfl, by decide⟩ (.inr rfl) (by decide), beq_iff_eq.1 hp⟩

end Dld
