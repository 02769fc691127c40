import Verif.Model.Linker
/-! # What can go wrong after the inputs are loaded -/
namespace Dld

/-- the computation only fails by a panic -/
def Panics {α : Type} (m : M α) : Prop := ∀ e, m = .error e → e = .panic

namespace Panics
variable {α β σ : Type}

theorem ok (a : α) : Panics (.ok a : M α) := by intro e h; cases h
theorem pure (a : α) : Panics (Pure.pure a : M α) := by intro e h; cases h
theorem panic : Panics (.error .panic : M α) := by intro e h; cases h; rfl
theorem unwrap (o : Option α) : Panics (Dld.unwrap o) := by
  cases o with
  | none => exact panic
  | some a => exact ok _
theorem bind {m : M α} {f : α → M β} (hm : Panics m) (hf : ∀ a, Panics (f a)) : Panics (m >>= f) := by
  intro e h
  cases m with
  | error x => have h : Except.error x = Except.error e := h; exact hm e (by cases h; rfl)
  | ok a => exact hf a e h
theorem ite {c : Prop} [Decidable c] {a b : M α} (ha : Panics a) (hb : Panics b) : Panics (if c then a else b) := by
  split
  · exact ha
  · exact hb
theorem foldM' {f : σ → α → M σ} (hf : ∀ s a, Panics (f s a)) : ∀ (l : List α) (s : σ), Panics (Dld.foldM' f s l)
  | [], s => ok s
  | a :: l, s => by
    intro e h
    unfold Dld.foldM' at h
    split at h
    · next x hx => cases h; exact hf s a _ hx
    · exact foldM' hf l _ e h
theorem mapAccumM {f : σ → α → M (σ × β)} (hf : ∀ s a, Panics (f s a)) : ∀ (l : List α) (s : σ), Panics (Dld.mapAccumM f s l)
  | [], s => ok _
  | a :: l, s => by
    intro e h
    unfold Dld.mapAccumM at h
    split at h
    · next x hx => cases h; exact hf s a _ hx
    · next s' b hb =>
      split at h
      · next x hx => cases h; exact mapAccumM hf l _ _ hx
      · cases h

end Panics

/-- one step of a proof of `Panics`; extended by the lemmas below -/
syntax "panics_step" : tactic
macro_rules | `(tactic| panics_step) => `(tactic| with_reducible (refine Panics.mapAccumM (fun _ _ => ?_) _ _))
macro_rules | `(tactic| panics_step) => `(tactic| with_reducible (refine Panics.foldM' (fun _ _ => ?_) _ _))
macro_rules | `(tactic| panics_step) => `(tactic| with_reducible (refine Panics.bind ?_ fun _ => ?_))
macro_rules | `(tactic| panics_step) => `(tactic| with_reducible (refine Panics.ite ?_ ?_))
macro_rules | `(tactic| panics_step) => `(tactic| with_reducible exact Panics.unwrap _)
macro_rules | `(tactic| panics_step) => `(tactic| with_reducible exact Panics.panic)
macro_rules | `(tactic| panics_step) => `(tactic| with_reducible exact Panics.pure _)
macro_rules | `(tactic| panics_step) => `(tactic| with_reducible exact Panics.ok _)
/-- proof of `Panics` by following the structure of the program -/
macro "panics" : tactic => `(tactic| repeat' (first | panics_step | (dsimp only []; first | panics_step | split) | split))

namespace Writer
theorem i64_panics (x : Int) : Panics (i64 x) := by unfold i64; panics
macro_rules | `(tactic| panics_step) => `(tactic| with_reducible apply i64_panics)
theorem i32_panics (x : Int) : Panics (i32 x) := by unfold i32; panics
macro_rules | `(tactic| panics_step) => `(tactic| with_reducible apply i32_panics)
theorem writeAt_panics (b : Bytes) (o : Nat) (v : Bytes) : Panics (writeAt b o v) := by unfold writeAt; panics
macro_rules | `(tactic| panics_step) => `(tactic| with_reducible apply writeAt_panics)
theorem sec_panics (w : Writer) (p : Nat) : Panics (w.sec p) := by unfold sec; panics
macro_rules | `(tactic| panics_step) => `(tactic| with_reducible apply sec_panics)
theorem secName_panics (w : Writer) (s : Section) : Panics (w.secName s) := by unfold secName; panics
macro_rules | `(tactic| panics_step) => `(tactic| with_reducible apply secName_panics)
theorem modifyChunk_panics (s : Section) (i : Nat) (f : Chunk → Chunk) : Panics (s.modifyChunk i f) := by unfold Section.modifyChunk; panics
macro_rules | `(tactic| panics_step) => `(tactic| with_reducible apply modifyChunk_panics)
theorem pltEntryAddr_panics (b i : Nat) : Panics (pltEntryAddr b i) := by unfold pltEntryAddr; panics
macro_rules | `(tactic| panics_step) => `(tactic| with_reducible apply pltEntryAddr_panics)
theorem relocS_panics (s : Symbol) (t : SymbolTable) : Panics (relocS s t) := by unfold relocS; panics
macro_rules | `(tactic| panics_step) => `(tactic| with_reducible apply relocS_panics)
theorem gotDisp_panics (s : Symbol) (a b c : Int) : Panics (gotDisp s a b c) := by unfold gotDisp; panics
macro_rules | `(tactic| panics_step) => `(tactic| with_reducible apply gotDisp_panics)
theorem relaxCallJmp_panics (d : Bytes) (o : Nat) (v : Int) : Panics (relaxCallJmp d o v) := by unfold relaxCallJmp; panics
macro_rules | `(tactic| panics_step) => `(tactic| with_reducible apply relaxCallJmp_panics)
theorem relaxMovLea_panics (d : Bytes) (o : Nat) (v : Int) : Panics (relaxMovLea d o v) := by unfold relaxMovLea; panics
macro_rules | `(tactic| panics_step) => `(tactic| with_reducible apply relaxMovLea_panics)
theorem applyRelocation_panics (a : Nat) (d : Bytes) (r : Rela) (s : Symbol) (t : SymbolTable) (g p : Nat) : Panics (applyRelocation a d r s t g p) := by unfold applyRelocation; panics
macro_rules | `(tactic| panics_step) => `(tactic| with_reducible apply applyRelocation_panics)
theorem applyRelocations_panics (c : Chunk) (g p : Nat) (t u : SymbolTable) : Panics (c.applyRelocations g p t u) := by unfold Chunk.applyRelocations; panics
macro_rules | `(tactic| panics_step) => `(tactic| with_reducible apply applyRelocations_panics)
theorem sortSections_panics (o : List Section → List Section) (l : List Section) : Panics (sortSections o l) := by unfold sortSections; panics
macro_rules | `(tactic| panics_step) => `(tactic| with_reducible apply sortSections_panics)
theorem scanOne_panics (st : ScanState) (e : Rela × SymbolRef) : Panics (scanOne st e) := by unfold scanOne; panics
macro_rules | `(tactic| panics_step) => `(tactic| with_reducible apply scanOne_panics)
theorem scanChunk_panics (st : ScanState) (e : Chunk) : Panics (scanChunk st e) := by unfold scanChunk; panics
macro_rules | `(tactic| panics_step) => `(tactic| with_reducible apply scanChunk_panics)
theorem scanSection_panics (st : ScanState) (e : Section) : Panics (scanSection st e) := by unfold scanSection; panics
macro_rules | `(tactic| panics_step) => `(tactic| with_reducible apply scanSection_panics)
theorem scanRelocations_panics (w : Writer) : Panics w.scanRelocations := by unfold scanRelocations; panics
macro_rules | `(tactic| panics_step) => `(tactic| with_reducible apply scanRelocations_panics)
theorem fillHashes_panics (s : Sched) (w : Writer) : Panics (w.fillHashes s) := by unfold fillHashes; panics
macro_rules | `(tactic| panics_step) => `(tactic| with_reducible apply fillHashes_panics)
theorem dynRelStep_panics (i : List (Nat × Nat)) (st : DynState) (k : Nat) : Panics (dynRelStep i st k) := by unfold dynRelStep; panics
macro_rules | `(tactic| panics_step) => `(tactic| with_reducible apply dynRelStep_panics)
theorem genDynRels_panics (s : Sched) (w : Writer) : Panics (w.genDynRels s) := by unfold genDynRels; panics
macro_rules | `(tactic| panics_step) => `(tactic| with_reducible apply genDynRels_panics)
theorem sizeDynamic_panics (w : Writer) : Panics w.sizeDynamic := by unfold sizeDynamic; panics
macro_rules | `(tactic| panics_step) => `(tactic| with_reducible apply sizeDynamic_panics)
theorem sortSecs_panics (s : Sched) (w : Writer) : Panics (w.sortSecs s) := by unfold sortSecs; panics
macro_rules | `(tactic| panics_step) => `(tactic| with_reducible apply sortSecs_panics)
theorem addDynEntries_panics (w : Writer) : Panics w.addDynEntries := by unfold addDynEntries; panics
macro_rules | `(tactic| panics_step) => `(tactic| with_reducible apply addDynEntries_panics)
theorem patchPltEntry_panics (t : SymbolTable) (a b : Nat) (c : Bytes × Bytes) (e : SymbolRef × Nat) : Panics (patchPltEntry t a b c e) := by unfold patchPltEntry; panics
macro_rules | `(tactic| panics_step) => `(tactic| with_reducible apply patchPltEntry_panics)
theorem patchPltHeader_panics (a b : Nat) (c : Bytes) : Panics (patchPltHeader a b c) := by unfold patchPltHeader; panics
macro_rules | `(tactic| panics_step) => `(tactic| with_reducible apply patchPltHeader_panics)
theorem patchPlt_panics (s : Sched) (w : Writer) : Panics (w.patchPlt s) := by unfold patchPlt; panics
macro_rules | `(tactic| panics_step) => `(tactic| with_reducible apply patchPlt_panics)
theorem assignSectionAddresses_panics (s : Sched) (w : Writer) : Panics (w.assignSectionAddresses s) := by unfold assignSectionAddresses; panics
macro_rules | `(tactic| panics_step) => `(tactic| with_reducible apply assignSectionAddresses_panics)
theorem boundSymbols_panics (y : StringTable) (a b : Name) (t : SymbolTable) (s : Section) : Panics (boundSymbols y a b t s) := by unfold boundSymbols; panics
macro_rules | `(tactic| panics_step) => `(tactic| with_reducible apply boundSymbols_panics)
theorem specialStep_panics (x y : StringTable) (l : List Nat) (t : SymbolTable) (s : Section) : Panics (specialStep x y l t s) := by unfold specialStep; panics
macro_rules | `(tactic| panics_step) => `(tactic| with_reducible apply specialStep_panics)
theorem handleSpecialSymbols_panics (w : Writer) : Panics w.handleSpecialSymbols := by unfold handleSpecialSymbols; panics
macro_rules | `(tactic| panics_step) => `(tactic| with_reducible apply handleSpecialSymbols_panics)
theorem handleRelocations_panics (w : Writer) : Panics w.handleRelocations := by unfold handleRelocations; panics
macro_rules | `(tactic| panics_step) => `(tactic| with_reducible apply handleRelocations_panics)
theorem computeTables_panics (w : Writer) : Panics w.computeTables := by unfold computeTables; panics
macro_rules | `(tactic| panics_step) => `(tactic| with_reducible apply computeTables_panics)
theorem finishHeader_panics (w : Writer) : Panics w.finishHeader := by unfold finishHeader; panics
macro_rules | `(tactic| panics_step) => `(tactic| with_reducible apply finishHeader_panics)
theorem computeSections_panics (s : Sched) (w : Writer) : Panics (w.computeSections s) := by unfold computeSections; panics
macro_rules | `(tactic| panics_step) => `(tactic| with_reducible apply computeSections_panics)
theorem finalizeSec_panics (s : Sched) (w : Writer) (t : Section) : Panics (w.finalizeSec s t) := by unfold finalizeSec; panics
macro_rules | `(tactic| panics_step) => `(tactic| with_reducible apply finalizeSec_panics)

theorem writeSections_panics (sched : Sched) (w : Writer) : ∀ (l : List Section) (o : Nat), Panics (w.writeSections sched o l)
  | [], o => Panics.ok _
  | s :: l, o => by
    unfold writeSections
    refine Panics.bind (finalizeSec_panics _ _ _) fun _ => Panics.bind (writeSections_panics sched w l _) fun _ => ?_
    panics

theorem writeToDisk_panics (sched : Sched) (w : Writer) : Panics (w.writeToDisk sched) := by
  unfold writeToDisk
  exact Panics.bind (writeSections_panics _ _ _ _) fun _ => Panics.ok _

end Writer
end Dld
