import Verif.Lemmas.FileRead
import Verif.Lemmas.Demo
import Verif.Spec.Dynamic
/-! # Checking that a concrete link meets the hypotheses of the theorems -/
namespace Dld
open Writer Spec

/-- A complete link of well-formed object files, with all numbers within the widths of the fields
of the file that hold them. -/
structure GoodRun (opts : Options) (ops : List Op) (sched : Sched) (w w' : Writer) (file : Bytes) (secs : List Section) :
    Prop where
  run : Run opts ops sched w w' file secs
  good : GoodInputs ops
  clean : NamesClean ops
  names : NamesFit w
  fit : NumbersFit w' file secs

instance (s : SectionHeader) : Decidable s.Fits :=
  decidable_of_iff (s.sh_name < 256 ^ 4 ∧ s.sh_type < 256 ^ 4 ∧ s.sh_flags < 256 ^ 8 ∧ s.sh_addr < 256 ^ 8 ∧ s.sh_offset < 256 ^ 8 ∧
    s.sh_size < 256 ^ 8 ∧ s.sh_link < 256 ^ 4 ∧ s.sh_info < 256 ^ 4 ∧ s.sh_addralign < 256 ^ 8 ∧ s.sh_entsize < 256 ^ 8)
    ⟨fun ⟨a, b, c, d, e, f, g, h, i, j⟩ => ⟨a, b, c, d, e, f, g, h, i, j⟩, fun ⟨a, b, c, d, e, f, g, h, i, j⟩ => ⟨a, b, c, d, e, f, g, h, i, j⟩⟩

instance (p : ProgramHeader) : Decidable p.Fits :=
  decidable_of_iff (p.p_type < 256 ^ 4 ∧ p.p_flags < 256 ^ 4 ∧ p.p_offset < 256 ^ 8 ∧ p.p_vaddr < 256 ^ 8 ∧ p.p_paddr < 256 ^ 8 ∧
    p.p_filesz < 256 ^ 8 ∧ p.p_memsz < 256 ^ 8 ∧ p.p_align < 256 ^ 8)
    ⟨fun ⟨a, b, c, d, e, f, g, h⟩ => ⟨a, b, c, d, e, f, g, h⟩, fun ⟨a, b, c, d, e, f, g, h⟩ => ⟨a, b, c, d, e, f, g, h⟩⟩

/-- the pushes among the calls -/
def pushList : List Op → List (Name × SectionHeader × Option Bytes × SectionRef)
  | [] => []
  | .push n sh d r :: ops => (n, sh, d, r) :: pushList ops
  | _ :: ops => pushList ops

theorem mem_pushList {ops : List Op} {n : Name} {sh : SectionHeader} {d : Option Bytes} {r : SectionRef} :
    (n, sh, d, r) ∈ pushList ops ↔ Op.push n sh d r ∈ ops := by
  induction ops with
  | nil => simp [pushList]
  | cons op ops ih => cases op <;> simp [pushList, ih]

/-- a check of `GoodInputs` and `NamesClean` -/
def goodOps (ops : List Op) : Bool :=
  (pushList ops).all (fun p => p.2.1.sh_flags != SHF_WRITE && p.2.1.sh_type != SHT_DYNAMIC && !reservedNames.contains p.1 &&
    (p.1 != [] || p.2.1.sh_size == 0 && p.2.2.1.getD [] == []) && (p.1 == [] || ((p.2.1.sh_type == SHT_NOBITS) == (p.2.2.1 == none))) &&
    (match p.2.2.1 with | some b => b.length == p.2.1.sh_size | none => true) && !p.1.contains 0) &&
  (pushList ops).all (fun p => (pushList ops).all fun q => p.1 != q.1 || ((p.2.1.sh_type == SHT_NOBITS) == (q.2.1.sh_type == SHT_NOBITS))) &&
  ops.all fun
    | .reloc _ _ r _ => (pushList ops).any fun p => p.2.2.2 == r
    | .sym _ (some r) _ _ _ => (pushList ops).any fun p => p.2.2.2 == r
    | _ => true

theorem goodOps_ok {ops : List Op} (h : goodOps ops = true) : GoodInputs ops ∧ NamesClean ops := by
  simp only [goodOps, Bool.and_eq_true] at h
  obtain ⟨⟨h1, h2⟩, h3⟩ := h
  rw [List.all_eq_true] at h1 h2 h3
  have h1' : ∀ n sh d r, Op.push n sh d r ∈ ops → _ := fun n sh d r hm => h1 (n, sh, d, r) (mem_pushList.2 hm)
  have hex : ∀ r, ((pushList ops).any fun p => p.2.2.2 == r) = true → ∃ n sh d, Op.push n sh d r ∈ ops := by
    intro r hr
    rw [List.any_eq_true] at hr
    obtain ⟨⟨n, sh, d, r'⟩, hm, e⟩ := hr
    have : r' = r := by simpa using e
    subst this
    exact ⟨n, sh, d, mem_pushList.1 hm⟩
  refine ⟨⟨?_, ?_, ⟨?_, ?_, ?_, ?_, ?_⟩, ⟨?_, ?_⟩⟩, ?_⟩
  · intro n sh d r hm
    have := h1' n sh d r hm
    simp only [Bool.and_eq_true, bne_iff_ne, ne_eq] at this
    exact this.1.1.1.1.1.1
  · intro n sh d r hm
    have := h1' n sh d r hm
    simp only [Bool.and_eq_true, bne_iff_ne, ne_eq] at this
    exact this.1.1.1.1.1.2
  · intro n sh d r hm
    have := h1' n sh d r hm
    simp only [Bool.and_eq_true] at this
    simpa using this.1.1.1.1.2
  · intro sh d r hm
    have := h1' [] sh d r hm
    simp only [Bool.and_eq_true] at this
    simpa using this.1.1.1.2
  · intro n sh d r hn hm
    have := h1' n sh d r hm
    simp only [Bool.and_eq_true] at this
    have := this.1.1.2
    have hn' : (n == []) = false := by simpa using hn
    simp only [hn', Bool.false_or, beq_iff_eq] at this
    have h5 := congrArg (· = true) this
    simp only [beq_iff_eq, eq_iff_iff] at h5
    exact h5
  · intro n sh b r hm
    have := h1' n sh (some b) r hm
    simp only [Bool.and_eq_true] at this
    simpa using this.1.2
  · intro n sh d r sh' d' r' hm hm'
    have := List.all_eq_true.1 (h2 (n, sh, d, r) (mem_pushList.2 hm)) (n, sh', d', r') (mem_pushList.2 hm')
    simp only [bne_self_eq_false, Bool.false_or, beq_iff_eq] at this
    have h5 := congrArg (· = true) this
    simp only [beq_iff_eq, eq_iff_iff] at h5
    exact h5
  · intro rel y r path hm
    exact hex r (h3 _ hm)
  · intro s r n path y hm
    exact hex r (h3 _ hm)
  · intro n sh d r hm
    have := h1' n sh d r hm
    simp only [Bool.and_eq_true] at this
    simpa using this.2

/-- a check of `NumbersFit` and `NamesFit` -/
def numbersFit (w w' : Writer) (file : Bytes) (secs : List Section) : Bool :=
  w.shstr.totalLen < 2 ^ 32 && w'.eh.e_entry < 2 ^ 64 && file.length < 2 ^ 64 && secs.length < 65536 && w'.programHeaders.length < 65536 &&
  secs.all (fun s => decide s.sh.Fits) && w'.programHeaders.all fun p => decide p.Fits

theorem numbersFit_ok {w w' : Writer} {file : Bytes} {secs : List Section} (h : numbersFit w w' file secs = true) :
    NamesFit w ∧ NumbersFit w' file secs := by
  simp only [numbersFit, Bool.and_eq_true, List.all_eq_true, decide_eq_true_eq] at h
  obtain ⟨⟨⟨⟨⟨⟨a, b⟩, c⟩, d⟩, e⟩, f⟩, g⟩ := h
  exact ⟨a, b, c, d, e, f, g⟩

/-- a concrete link of well-formed objects that satisfies a decidable condition -/
theorem GoodRun.of_runs {opts : Options} {ops : List Op} {sched : Sched} {P : Writer → Writer → Bytes → List Section → Bool}
    (hv : sched.Valid) (hg : goodOps ops = true) (h : runs opts ops sched (fun w w' f s => numbersFit w w' f s && P w w' f s) = true) :
    ∃ w w' f s, GoodRun opts ops sched w w' f s ∧ P w w' f s = true := by
  obtain ⟨w, w', f, s, hr, hp⟩ := Run.of_runs hv h
  rw [Bool.and_eq_true] at hp
  obtain ⟨g1, g2⟩ := goodOps_ok hg
  obtain ⟨n1, n2⟩ := numbersFit_ok hp.1
  exact ⟨w, w', f, s, ⟨hr, g1, g2, n1, n2⟩, hp.2⟩

theorem PlainTypes.of_all {ops : List Op} (h : pushesAll (fun _ sh _ => sh.sh_type != SHT_STRTAB && sh.sh_type != SHT_DYNSYM &&
    sh.sh_type != SHT_HASH && sh.sh_type != SHT_GNU_HASH) ops = true) : PlainTypes ops := by
  intro n sh d r hm
  have := pushesAll_iff h n sh d r hm
  simp only [Bool.and_eq_true, bne_iff_ne, ne_eq] at this
  exact ⟨this.1.1.1, this.1.1.2, this.1.2, this.2⟩

theorem demo_good : goodOps demoOps = true := by decide +kernel
theorem demo_plain : PlainTypes demoOps := .of_all (by decide +kernel)

end Dld
