import Verif.Lemmas.Progress8
import Verif.Props.Refs
/-! # C96: linking well-formed inputs of moderate size never crashes -/
namespace Dld
open Writer Spec

variable {opts : Options} {ops : List Op} {sched : Sched} {w : Writer} {F : List Nat} {V K : Nat}

/-- C96 (partial): after any sequence of calls that is well-formed in the sense of `Spec.WellFormed`
and has no relocations in sections that are not loaded, `compute_sections` and `write_to_disk`
succeed, whatever the order in which the hash maps are iterated. Missing from the full claim:
relocations in sections that are not loaded, such as those of debugging information; see `C96_no_crash_violated`. -/
theorem C96_no_crash_partial (h : Hist opts ops w) (hv : sched.Valid) (hd : Digestible opts ops w F V K) :
    ∃ w' file secs, w.computeSections sched = .ok w' ∧ w'.writeToDisk sched = .ok (file, secs) := by
  obtain ⟨w', f, s, hr⟩ := h.digest hv hd
  exact ⟨w', f, s, hr.compute, hr.write⟩

/-! ### Checking that concrete calls are well-formed -/

/-- a check of `Applicable` that does not depend on the symbol -/
def applies (data : Bytes) (rel : Rela) : Bool :=
  [0, 1, 2, 3, 4, 10, 11, 23, 41, 42].contains (relType rel) && decide ((relField rel).1 + (relField rel).2 ≤ data.length) &&
  (relType rel != 41 || decide (2 ≤ rel.r_offset) && data[rel.r_offset - 2]? == some 0xff && (data[rel.r_offset - 1]? == some 0x15 || data[rel.r_offset - 1]? == some 0x25)) &&
  (relType rel != 42 || decide (3 ≤ rel.r_offset) && (data[rel.r_offset - 3]? == some 0x48 || data[rel.r_offset - 3]? == some 0x4c) &&
    data[rel.r_offset - 2]? == some 0x8b && (data[rel.r_offset - 1]?).any fun (z : UInt8) => z.toNat % 8 == 5 && decide (z.toNat < 64))

theorem applies_ok {t : SymbolTable} {data : Bytes} {rel : Rela} {y : SymbolRef} (h : applies data rel = true) : Applicable t data rel y := by
  simp only [applies, Bool.and_eq_true, Bool.or_eq_true, decide_eq_true_eq, List.contains_iff_mem, bne_iff_ne, ne_eq, beq_iff_eq] at h
  obtain ⟨⟨⟨h1, h2⟩, h3⟩, h4⟩ := h
  refine ⟨?_, h2, ?_, ?_, ?_⟩
  · simp only [List.mem_cons, List.not_mem_nil, or_false] at h1 ⊢
    omega
  · intro e _
    rcases h3 with h3 | ⟨⟨h3, h5⟩, h6⟩
    · exact absurd e h3
    · exact ⟨h3, h5, h6⟩
  · intro e _
    rcases h4 with h4 | ⟨⟨⟨h4, h5⟩, h6⟩, h7⟩
    · exact absurd e h4
    · rw [Option.any_eq_true] at h7
      obtain ⟨z, hz, h8⟩ := h7
      simp only [Bool.and_eq_true, beq_iff_eq, decide_eq_true_eq] at h8
      exact ⟨h4, h5, h6, z, hz, h8.1, h8.2⟩
  · intro e
    simp only [List.mem_cons, List.not_mem_nil, or_false] at h1
    omega

/-- the relocations among the calls -/
def relaList : List Op → List (SectionRef × Rela)
  | [] => []
  | .reloc rel _ sr _ :: ops => (sr, rel) :: relaList ops
  | _ :: ops => relaList ops

theorem relasIn_eq (sr : SectionRef) (ops : List Op) : relasIn sr ops = (relaList ops).filterMap fun e => if e.1 = sr then some e.2 else none := by
  unfold relasIn
  induction ops with
  | nil => rfl
  | cons op ops ih => cases op <;> simp [relaList, List.filterMap_cons, ih]

instance (a b : Nat × Nat) : Decidable (Apart a b) := inferInstanceAs (Decidable (_ ∨ _))

/-- a check of `WellFormed` apart from the sizes -/
def wellOps (ops : List Op) (F : List Nat) (V : Nat) : Bool :=
  goodOps ops && cleanSyms ops && decide ((relaList ops).Pairwise fun a b => a.1 ≠ b.1 ∨ Apart (relField a.2) (relField b.2)) &&
  ops.all fun
    | .push _ sh _ _ => F.contains sh.sh_flags
    | .sym s _ n _ _ => decide (s.st_value ≤ V) && (stType s.st_info != STT_SECTION || n == [])
    | .reloc rel y sr _ => decide (-(V : Int) ≤ rel.r_addend ∧ rel.r_addend ≤ V) && ops.any (fun | .sym _ _ _ _ y' => y' == y | _ => false) &&
        (pushList ops).any fun p => p.2.2.2 == sr && (match p.2.2.1 with | some data => applies data rel | none => false)
    | _ => true

theorem Spec.WellFormed.of_check (h : wellOps ops F V = true) (hF : F.length ≤ 1000) (hs : 4 * (V + (ops.length + 5) * reach opts ops) < 2 ^ 31) :
    WellFormed opts ops w F V ops.length := by
  simp only [wellOps, Bool.and_eq_true, decide_eq_true_eq, List.all_eq_true] at h
  obtain ⟨⟨⟨h1, h2⟩, h3⟩, h4⟩ := h
  refine ⟨(goodOps_ok h1).1, ?_, (cleanSyms_ok h2).2, (cleanSyms_ok h2).1, ?_, ⟨?_, ?_⟩, ?_, hF, ?_, ?_, ?_, hs⟩
  · intro rel y r path hm
    have := h4 _ hm
    simp only [Bool.and_eq_true, List.any_eq_true] at this
    obtain ⟨⟨_, op, hop, he⟩, _⟩ := this
    cases op <;> simp at he
    exact ⟨_, _, _, _, he ▸ hop⟩
  · intro s sec n path r hm hst
    have := h4 _ hm
    simp only [Bool.and_eq_true, Bool.or_eq_true, bne_iff_ne, ne_eq, beq_iff_eq] at this
    rcases this.2 with h | h
    · exact absurd hst h
    · exact h
  · intro rel y sr path hm
    have := h4 _ hm
    simp only [Bool.and_eq_true, List.any_eq_true] at this
    obtain ⟨_, ⟨n, sh, d, r⟩, hp, he⟩ := this
    simp only [beq_iff_eq] at he
    cases d with
    | none => simp at he
    | some data =>
      simp only at he
      exact ⟨n, sh, data, by rw [← he.1]; exact mem_pushList.1 hp, applies_ok he.2⟩
  · intro sr
    rw [relasIn_eq]
    rw [List.pairwise_filterMap]
    refine h3.imp ?_
    intro a b hab x hx y hy
    split at hx <;> cases hx
    split at hy <;> cases hy
    next e1 e2 =>
    rcases hab with h | h
    · exact absurd (e1.trans e2.symm) h
    · exact h
  · intro n sh d r hm
    simpa using h4 _ hm
  · intro s sec n path r hm
    have := h4 _ hm
    simp only [Bool.and_eq_true, decide_eq_true_eq] at this
    exact this.1
  · intro rel y sr path hm
    have := h4 _ hm
    simp only [Bool.and_eq_true, decide_eq_true_eq] at this
    exact this.1.1
  · intro r
    exact List.length_filter_le _ _

/-- a check of `RelocsLoaded` -/
def loadedOps (ops : List Op) : Bool :=
  (relaList ops).all fun e => (pushList ops).all fun p => p.2.2.2 != e.1 || (pushList ops).all fun q => q.1 != p.1 || q.2.1.sh_flags / 2 % 2 == 1

theorem mem_relaList {rel : Rela} {y : SymbolRef} {sr : SectionRef} {path : Path} (h : Op.reloc rel y sr path ∈ ops) : (sr, rel) ∈ relaList ops := by
  induction ops with
  | nil => cases h
  | cons op ops ih =>
    rcases List.mem_cons.1 h with h | h
    · subst h; simp [relaList]
    · have := ih h
      cases op <;> simp [relaList, this]

theorem Spec.RelocsLoaded.of_check (h : loadedOps ops = true) : RelocsLoaded ops := by
  intro rel y sr path n sh data hm hp sh' d' r' hp'
  simp only [loadedOps, List.all_eq_true] at h
  have := h _ (mem_relaList hm) _ (mem_pushList.2 hp)
  simp only [Bool.or_eq_true, bne_self_eq_false, Bool.false_eq_true, false_or, List.all_eq_true] at this
  simpa using this _ (mem_pushList.2 hp')

/-- `C96_no_crash_partial`: code and data of two objects that call, load and point to their own functions and those of a library -/
example : ∃ w, Hist Options.default (refOps (.named 10)) w ∧ Digestible Options.default (refOps (.named 10)) w [0, 3, 6] 100 21 := by
  have : (match runOps Options.default (refOps (.named 10)) with | .ok _ => true | _ => false) = true := by decide +kernel
  split at this
  · next w h =>
    exact ⟨w, .of_run h, .of_check (by decide +kernel) (by decide) (by decide +kernel), .of_check (by decide +kernel)⟩
  · cases this

/-! ### Debugging information -/

/-- A program with debugging information: `.debug_info` is not loaded and has the address of `_start`. -/
def debugOps : List Op :=
  [ .push [] {} (some []) ⟨0, 0⟩,
    .push b!".text" (demoSh SHT_PROGBITS 6 16 16) (some (List.replicate 16 0x90)) ⟨16, 0⟩,
    .push b!".debug_info" (demoSh SHT_PROGBITS 0 16 1) (some (List.replicate 16 0)) ⟨17, 0⟩,
    .sym (demoSym STT_FUNC 1 0 12) (some ⟨16, 0⟩) b!"_start" demoPath (.named 1),
    .reloc { r_offset := 8, r_info := 2 ^ 32 + 1, r_addend := 0 } (.named 1) ⟨17, 0⟩ demoPath ]

/-- C96 (violated): linking one object compiled with debugging information crashes. -/
theorem C96_no_crash_violated : ∃ w, Hist Options.default debugOps w ∧ WellFormed Options.default debugOps w [0, 6] 100 5 ∧
    w.computeSections Sched.id = .error .panic := by
  have : (match runOps Options.default debugOps with | .ok w => (match w.computeSections Sched.id with | .error .panic => true | _ => false) | _ => false) = true := by
    decide +kernel
  split at this
  · next w h =>
    refine ⟨w, .of_run h, .of_check (by decide +kernel) (by decide) (by decide +kernel), ?_⟩
    split at this
    · next h => exact h
    · cases this
  · cases this

end Dld
