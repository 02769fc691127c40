import Verif.Lemmas.Trace
import Verif.Lemmas.Sort
import Verif.Lemmas.AMap
/-! # The symbol tables through the stages of `compute_sections` -/
namespace Dld
open Writer

/-- a symbol table, each symbol seen through `F` -/
structure View (γ : Type) where
  symbols : List (Nat × γ)
  sectionSyms : List (Nat × List γ)
  numLocals : Nat
  isDynamic : Bool

namespace SymbolTable

def view {γ : Type} (F : Symbol → γ) (t : SymbolTable) : View γ :=
  { symbols := t.symbols.map fun e => (e.1, F e.2), sectionSyms := t.sectionSyms.map fun e => (e.1, e.2.map F)
    numLocals := t.numLocals, isDynamic := t.isDynamic }

variable {γ : Type} {F : Symbol → γ}

theorem map_modify {κ ν μ : Type} [DecidableEq κ] (m : List (κ × ν)) (k : κ) (f : ν → ν) (G : ν → μ)
    (h : ∀ v, AMap.get? m k = some v → G (f v) = G v) :
    ((AMap.modify m k f).map fun e => (e.1, G e.2)) = m.map fun e => (e.1, G e.2) := by
  induction m with
  | nil => rfl
  | cons e m ih =>
    obtain ⟨a, b⟩ := e
    by_cases hk : a = k
    · simp only [AMap.modify, if_pos hk, List.map_cons]
      rw [h b (by simp [AMap.get?, hk])]
    · simp only [AMap.modify, if_neg hk, List.map_cons]
      rw [ih (fun v hv => h v (by simpa [AMap.get?, hk] using hv))]

theorem view_modify' {t : SymbolTable} {r : SymbolRef} {f : Symbol → Symbol} (h : ∀ s, t.get r = some s → F (f s) = F s) :
    (t.modify r f).view F = t.view F := by
  cases r with
  | named n =>
    simp only [modify, view]
    rw [map_modify _ _ _ _ (fun v hv => h v hv)]
  | «section» s i =>
    simp only [modify, view]
    rw [map_modify _ _ _ _]
    intro l hl
    apply List.ext_getElem?
    intro j
    simp only [List.getElem?_map, List.getElem?_modify]
    by_cases hj : i = j
    · subst hj
      cases hlj : l[i]? with
      | none => simp
      | some x =>
        simp [h x (by simp [get, hl, hlj])]
    · simp [hj]

theorem view_modify {t : SymbolTable} {r : SymbolRef} {f : Symbol → Symbol} (h : ∀ s, F (f s) = F s) :
    (t.modify r f).view F = t.view F := view_modify' fun s _ => h s

theorem view_symbols {t t' : SymbolTable} (h : t'.view F = t.view F) :
    (t'.symbols.map fun e => (e.1, F e.2)) = t.symbols.map fun e => (e.1, F e.2) := congrArg View.symbols h

theorem view_keys {t t' : SymbolTable} (h : t'.view F = t.view F) : AMap.keys t'.symbols = AMap.keys t.symbols := by
  have := congrArg (List.map (·.1)) (view_symbols h)
  simpa [AMap.keys, List.map_map, Function.comp_def] using this

theorem view_length {t t' : SymbolTable} (h : t'.view F = t.view F) : t'.symbols.length = t.symbols.length := by
  simpa using congrArg List.length (view_symbols h)

theorem view_get {t t' : SymbolTable} (h : t'.view F = t.view F) (r : SymbolRef) : (t'.get r).map F = (t.get r).map F := by
  cases r with
  | named n =>
    have := congrArg (fun l => AMap.get? l n) (view_symbols h)
    simpa [AMap.get?_map_value, get] using this
  | «section» s i =>
    have := congrArg (fun l => (AMap.get? l s).bind (·[i]?)) (congrArg View.sectionSyms h)
    simp only [view, AMap.get?_map_value t'.sectionSyms (List.map F), AMap.get?_map_value t.sectionSyms (List.map F)] at this
    simp only [get]
    cases h1 : AMap.get? t'.sectionSyms s <;> cases h2 : AMap.get? t.sectionSyms s <;> simp [h1, h2] at this ⊢ <;> exact this

theorem view_get_some {t t' : SymbolTable} (h : t'.view F = t.view F) {r : SymbolRef} {s' : Symbol} (hs : t'.get r = some s') :
    ∃ s, t.get r = some s ∧ F s' = F s := by
  have := view_get h r
  rw [hs] at this
  obtain ⟨s, h1, h2⟩ := Option.map_eq_some_iff.1 this.symm
  exact ⟨s, h1, h2.symm⟩

theorem view_mono {δ : Type} {G : Symbol → δ} {t t' : SymbolTable} (h : t'.view F = t.view F) (g : γ → δ) (hg : ∀ s, G s = g (F s)) :
    t'.view G = t.view G := by
  have key : ∀ t : SymbolTable, t.view G =
      { symbols := (t.view F).symbols.map fun e => (e.1, g e.2), sectionSyms := (t.view F).sectionSyms.map fun e => (e.1, e.2.map g), numLocals := (t.view F).numLocals, isDynamic := (t.view F).isDynamic } := by
    intro t
    simp only [view, List.map_map, View.mk.injEq, and_true]
    refine ⟨List.map_congr_left fun e _ => by simp [hg], List.map_congr_left fun e _ => ?_⟩
    simp [List.map_map, Function.comp_def, hg]
  rw [key, key, h]

theorem view_updateObject {t : SymbolTable} {a i : Nat} (h : ∀ s : Symbol, s.isObject = true →
    F { s with sym := { s.sym with st_value := s.sym.st_value + a, st_shndx := u16 i } } = F s) :
    (t.updateObjectSymbols a i).view F = t.view F := by
  simp only [updateObjectSymbols, view, List.map_map, View.mk.injEq, and_true]
  apply List.map_congr_left
  intro e _
  obtain ⟨k, s⟩ := e
  simp only [Function.comp]
  by_cases ho : s.isObject
  · rw [if_pos ho]; simp [h s ho]
  · rw [if_neg ho]

/-! ### Sorted order -/

theorem _root_.Dld.insertSorted_map {α β : Type} {le : α → α → Bool} {le' : β → β → Bool} {f : α → β}
    (h : ∀ a b, le' (f a) (f b) = le a b) (x : α) (l : List α) :
    insertSorted le' (f x) (l.map f) = (insertSorted le x l).map f := by
  induction l with
  | nil => rfl
  | cons y ys ih =>
    simp only [List.map_cons, insertSorted, h]
    split
    · simp
    · simp [ih]

theorem _root_.Dld.stableSort_map {α β : Type} {le : α → α → Bool} {le' : β → β → Bool} {f : α → β}
    (h : ∀ a b, le' (f a) (f b) = le a b) (l : List α) : stableSort le' (l.map f) = (stableSort le l).map f := by
  induction l with
  | nil => rfl
  | cons x xs ih => simp only [List.map_cons, stableSort, ih, insertSorted_map h]

/-- the emitted order depends only on binding and hash of the entries -/
theorem sorted_view {le' : γ → γ → Bool} (hle : ∀ a b, le' (F a) (F b) = sortLe a b) (order : List Nat → List Nat)
    {t t' : SymbolTable} (h : t'.view F = t.view F) : (t'.sorted order).map F = (t.sorted order).map F := by
  have key : ∀ t : SymbolTable, (t.sorted order).map F = stableSort le'
      ((order (AMap.keys t.symbols)).filterMap fun k => AMap.get? (t.symbols.map fun e => (e.1, F e.2)) k) := by
    intro t
    unfold sorted
    rw [← stableSort_map hle, List.map_filterMap]
    congr 2
    funext k
    rw [AMap.get?_map_value]
  rw [key, key, view_keys h, view_symbols h]

theorem sorted_length {order : List Nat → List Nat} (ho : ∀ l, (order l).Perm l) (t : SymbolTable) :
    (t.sorted order).length = t.symbols.length := by
  unfold sorted
  rw [length_stableSort]
  have h2 : ∀ l : List Nat, (∀ k ∈ l, k ∈ AMap.keys t.symbols) → (l.filterMap (AMap.get? t.symbols)).length = l.length := by
    intro l
    induction l with
    | nil => intro _; rfl
    | cons k l ih =>
      intro h
      obtain ⟨v, hv⟩ := AMap.exists_get? (h k (by simp))
      rw [List.filterMap_cons_some hv]
      simp [ih fun k hk => h k (by simp [hk])]
  rw [h2 _ (fun k hk => (ho _).mem_iff.1 hk), (ho _).length_eq]
  simp [AMap.keys]

theorem length_serSym (s : Sym) : (serSym s).length = sizeofSym := by simp [serSym, sizeofSym]

theorem length_chunk {order : List Nat → List Nat} (ho : ∀ l, (order l).Perm l) (t : SymbolTable) :
    (t.chunk order).length = t.totalLen := by
  have : ∀ l : List Symbol, (l.flatMap fun s => serSym s.sym).length = l.length * sizeofSym := by
    intro l
    induction l with
    | nil => simp
    | cons s l ih => simp only [List.flatMap_cons, List.length_append, ih, length_serSym, List.length_cons, Nat.add_mul]; omega
  rw [chunk, this, sorted_length ho, totalLen]

end SymbolTable

/-! ### The stages -/
namespace Writer
open SymbolTable
variable {γ : Type} {F : Symbol → γ}

/-- `F` does not look at what `scan_relocations` sets -/
def ScanBlind (F : Symbol → γ) : Prop :=
  ∀ s a b c, F { s with inGot := a } = F s ∧ F { s with inGotPlt := b, inPlt := c } = F s

/-- `F` does not look at the value and section of a symbol -/
def PlaceBlind (F : Symbol → γ) : Prop :=
  ∀ (s : Symbol) a b, F { s with sym := { s.sym with st_shndx := a, st_value := b } } = F s

theorem PlaceBlind.value (h : PlaceBlind F) (s : Symbol) (b : Nat) : F { s with sym := { s.sym with st_value := b } } = F s :=
  h s s.sym.st_shndx b

theorem scanOne_view {st st' : ScanState} {e e' : Rela × SymbolRef} (hF : ScanBlind F) (h : scanOne st e = .ok (st', e')) :
    st'.symtab.view F = st.symtab.view F := by
  obtain ⟨reloc, r⟩ := e
  simp only [scanOne] at h
  split at h
  · simp only [bind_ok] at h
    obtain ⟨sym, _, h⟩ := h
    split at h
    · cases h; exact view_modify fun s => (hF s _ none none).1
    · cases h; rfl
  · split at h
    · simp only [bind_ok] at h
      obtain ⟨sym, _, h⟩ := h
      split at h
      · cases h; exact view_modify fun s => (hF s none _ _).2
      · cases h; rfl
    · cases h; rfl

theorem mapAccumM_state {σ α β δ : Type} {f : σ → α → M (σ × β)} {G : σ → δ}
    (hf : ∀ s a s' b, f s a = .ok (s', b) → G s' = G s) {l : List α} {s s' : σ} {l' : List β}
    (h : mapAccumM f s l = .ok (s', l')) : G s' = G s := by
  induction l generalizing s l' with
  | nil => cases h; rfl
  | cons a l ih =>
    rw [mapAccumM_cons] at h
    obtain ⟨s1, b, s2, bs, h1, h2, h3⟩ := h
    cases h3
    rw [ih h2, hf _ _ _ _ h1]

theorem scan_view {w w' : Writer} (hF : ScanBlind F) (h : w.scanRelocations = .ok w') : w'.symtab.view F = w.symtab.view F := by
  simp only [scanRelocations, bind_ok, Prod.exists] at h
  obtain ⟨st, secs, h1, h2⟩ := h
  cases h2
  refine mapAccumM_state (G := fun st : ScanState => st.symtab.view F) ?_ h1
  intro s a s' b h
  simp only [scanSection, bind_ok, Prod.exists] at h
  obtain ⟨s1, cs, h1, h2⟩ := h
  cases h2
  refine mapAccumM_state (G := fun st : ScanState => st.symtab.view F) ?_ h1
  intro s a s' b h
  simp only [scanChunk, bind_ok, Prod.exists] at h
  obtain ⟨s1, cs, h1, h2⟩ := h
  cases h2
  exact mapAccumM_state (G := fun st : ScanState => st.symtab.view F) (fun _ _ _ _ h => scanOne_view hF h) h1

theorem foldM'_state {σ α δ : Type} {f : σ → α → M σ} {G : σ → δ}
    (hf : ∀ s a s', f s a = .ok s' → G s' = G s) {l : List α} {s s' : σ} (h : foldM' f s l = .ok s') : G s' = G s := by
  induction l generalizing s with
  | nil => cases h; rfl
  | cons a l ih =>
    rw [foldM'_cons, bind_ok] at h
    obtain ⟨s1, h1, h2⟩ := h
    rw [ih h2, hf _ _ _ h1]

theorem dynRelStep_view {δ : Type} {G : Symbol → δ} (hF : ∀ s a, F { s with relocationOffset := a } = F s) (hG : PlaceBlind G)
    {ix : List (Nat × Nat)} {st st' : DynState} {k : Nat} (h : dynRelStep ix st k = .ok st') :
    st'.symtab.view F = st.symtab.view F ∧ st'.dynsym.view G = st.dynsym.view G := by
  simp only [dynRelStep, bind_ok] at h
  obtain ⟨sym, hs, h⟩ := h
  cases hd : sym.dynamic with
  | none => rw [hd] at h; cases h; exact ⟨rfl, rfl⟩
  | some d =>
    rw [hd] at h
    simp only [bind_ok] at h
    obtain ⟨ix, _, ds, _, h⟩ := h
    cases hp : sym.inGotPlt <;> rw [hp] at h <;> cases h <;> refine ⟨?_, ?_⟩
    all_goals first
      | (cases sym.inGot <;> cases ds.isObject <;> rfl)
      | (cases sym.inGot <;> cases ds.isObject <;> exact view_modify fun s => hF s _)
      | (cases sym.inGot <;> cases ds.isObject <;> first | rfl | exact view_modify fun s => hG.value s _)

theorem genDynRels_view {δ : Type} {G : Symbol → δ} {sched : Sched} {w w' : Writer}
    (hF : ∀ s a, F { s with relocationOffset := a } = F s) (hG : PlaceBlind G) (h : w.genDynRels sched = .ok w') :
    w'.symtab.view F = w.symtab.view F ∧ w'.dynsym.view G = w.dynsym.view G := by
  simp only [genDynRels, bind_ok] at h
  obtain ⟨st, h1, h2⟩ := h
  cases h2
  have := foldM'_state (G := fun st : DynState => (st.symtab.view F, st.dynsym.view G))
    (fun s a s' h => by
      have := dynRelStep_view hF hG h
      simp [this.1, this.2]) h1
  exact ⟨congrArg (·.1) this, congrArg (·.2) this⟩

theorem boundSymbols_view (hF : PlaceBlind F) {y : StringTable} {a b : Name} {t t' : SymbolTable} {s s' : Section}
    (h : boundSymbols y a b t s = .ok (t', s')) : t'.view F = t.view F := by
  simp only [boundSymbols] at h
  have tail : ∀ s1 : Section, (match y.get b with
      | some e => do
        let r := SymbolRef.named (u32 e.offset)
        let _ ← unwrap (t.get r)
        let t := t.modify r fun x => { x with sym := { x.sym with st_value := s1.sizeOnDisk } }
        let s ← if s1.chunks.length = 0 then .error .panic
          else s1.modifyChunk (s1.chunks.length - 1) (·.addSymbol r)
        .ok (t, s)
      | none => .ok (t, s1)) = (.ok (t', s') : M (SymbolTable × Section)) → t'.view F = t.view F := by
    intro s1 h
    cases hb : y.get b with
    | none => rw [hb] at h; cases h; rfl
    | some e =>
      rw [hb] at h
      simp only [bind_ok] at h
      obtain ⟨_, _, h⟩ := h
      by_cases hz : s1.chunks.length = 0
      · simp only [if_pos hz] at h; cases h
      · simp only [if_neg hz] at h
        rw [bind_ok] at h
        obtain ⟨_, _, h⟩ := h
        cases h
        exact view_modify fun s => hF.value s _
  cases ha : y.get a with
  | none => rw [ha] at h; exact tail _ h
  | some e =>
    rw [ha] at h
    rw [bind_ok] at h
    obtain ⟨s1, _, h⟩ := h
    exact tail _ h

theorem special_view {δ : Type} {G : Symbol → δ} {w w' : Writer} (hF : PlaceBlind F) (hG : PlaceBlind G)
    (h : w.handleSpecialSymbols = .ok w') : w'.symtab.view F = w.symtab.view F ∧ w'.dynsym.view G = w.dynsym.view G := by
  simp only [handleSpecialSymbols, bind_ok, Prod.exists] at h
  obtain ⟨g, _, a, _, b, _, t, secs, h1, c, _, h2⟩ := h
  cases h2
  refine ⟨?_, ?_⟩
  · have := mapAccumM_state (G := fun t : SymbolTable => t.view F) (fun s a s' b h => by
      simp only [specialStep] at h
      split at h
      · cases h; rfl
      · split at h
        · exact boundSymbols_view hF h
        · split at h
          · exact boundSymbols_view hF h
          · cases h; rfl) h1
    rw [this]
    cases w.symstr.get b!"_GLOBAL_OFFSET_TABLE_" with
    | none => rfl
    | some e => exact view_modify fun s => hF s _ _
  · exact view_updateObject fun s _ => hG s _ _

theorem patchSymbols_view (hF : PlaceBlind F) (base ix : Nat) (t : SymbolTable) (l : List SymbolRef) :
    (Section.patchSymbols base ix t l).view F = t.view F := by
  unfold Section.patchSymbols
  induction l generalizing t with
  | nil => rfl
  | cons r l ih =>
    rw [List.foldl_cons, ih]
    exact view_modify fun s => hF s _ _

theorem patchChunks_view (hF : PlaceBlind F) (ix base : Nat) (t : SymbolTable) (l : List Chunk) :
    (Section.patchChunks ix base t l).view F = t.view F := by
  induction l generalizing base t with
  | nil => rfl
  | cons c l ih => rw [Section.patchChunks, ih, patchSymbols_view hF]

theorem handleRelocations_view {w w' : Writer} (hF : PlaceBlind F) (h : w.handleRelocations = .ok w') :
    w'.symtab.view F = w.symtab.view F := by
  obtain ⟨g, p, y, d, rest, _, _, _, _, h1, _, _⟩ := handleRelocations_ok h
  rw [h1]
  generalize (w.sections.drop 1).filter _ = l
  generalize w.symtab = t
  induction l generalizing t with
  | nil => rfl
  | cons s l ih =>
    rw [List.foldl_cons, ih]
    exact patchChunks_view hF _ _ _ _

variable {sched : Sched} {w : Writer}

theorem Early.scanned_dynsym (st : Early sched w) : st.scanned.dynsym = w.dynsym := by rw [(scan_sections st.hscan).2]

theorem Early.filled_tables (st : Early sched w) : st.filled.symtab = st.scanned.symtab ∧ st.filled.dynsym = w.dynsym ∧
    st.filled.gotPlt = st.scanned.gotPlt ∧ st.filled.plt = st.scanned.plt ∧ st.filled.gotLen = st.scanned.gotLen ∧
    st.filled.copyRel = w.copyRel ∧ st.filled.dynRels = w.dynRels ∧ st.filled.pltRels = w.pltRels ∧
    st.filled.symstr = w.symstr ∧ st.filled.dynstr = w.dynstr ∧ st.filled.dynEntries = w.dynEntries := by
  have h2 := fillHashes_rest st.hfill
  have h1 := (scan_sections st.hscan).2
  rw [h2]
  simp only [expandDynsym, resizeGotPlt, resizeGot, modSec]
  refine ⟨trivial, ?_, trivial, trivial, trivial, ?_, ?_, ?_, ?_, ?_, ?_⟩ <;> rw [h1]

/-- between `genDynRels` and `handle_special_symbols` the tables stay -/
theorem Mid.patched_tables (st : Mid sched w) : st.patched.symtab = st.dynrel.symtab ∧ st.patched.dynsym = st.dynrel.dynsym ∧
    st.patched.gotPlt = st.dynrel.gotPlt ∧ st.patched.plt = st.dynrel.plt ∧ st.patched.gotLen = st.dynrel.gotLen ∧
    st.patched.copyRel = st.dynrel.copyRel ∧ st.patched.dynRels = st.dynrel.dynRels ∧ st.patched.pltRels = st.dynrel.pltRels ∧
    st.patched.symstr = st.dynrel.symstr ∧ st.patched.dynstr = st.dynrel.dynstr ∧ st.patched.shstr = st.dynrel.shstr := by
  have h1 := (sizeDynamic_sections st.hdynamic).2
  obtain ⟨_, _, _, h2, _⟩ := sortSecs_ok st.hsort
  have h3 : st.placed = { st.sorted with sections := st.placed.sections, programHeaders := st.placed.programHeaders, fileOffset := st.placed.fileOffset, pVaddr := st.placed.pVaddr } := by
    unfold Early.placed genProgramHeaders; rfl
  have h4 := addDynEntries_rest st.hentries
  have h5 := (patchPlt_post st.hpatch).2
  have e : st.sorted.genProgramHeaders = st.placed := rfl
  rw [h5, h4, e, h3, h2, h1]
  exact ⟨rfl, rfl, rfl, rfl, rfl, rfl, rfl, rfl, rfl, rfl, rfl⟩

theorem Stages.final_tables (st : Stages sched w) : st.final.symtab = st.relocated.symtab ∧ st.final.dynsym = st.special.dynsym ∧
    st.final.dynRels = st.tables.dynRels ∧ st.final.pltRels = st.tables.pltRels ∧
    st.relocated.dynRels = st.dynrel.dynRels ∧ st.relocated.pltRels = st.dynrel.pltRels ∧
    st.relocated.dynEntries = st.entries.dynEntries ∧ st.final.copyRel = st.dynrel.copyRel ∧
    st.final.dynEntries = st.entries.dynEntries := by
  have h3 := (special_post st.hspecial).2.2
  have h4 := (handleRelocations_post st.hreloc).2.2
  obtain ⟨_, _, h6⟩ := computeTables_ok st.htables
  obtain ⟨entry, s, ph, phs, _, _, _, _, _, h7⟩ := finishHeader_ok st.hfinal
  have h5 := (patchPlt_post st.hpatch).2
  obtain ⟨_, _, _, _, _, p6, p7, p8, _⟩ := st.patched_tables
  have e1 : st.relocated.dynRels = st.dynrel.dynRels := by rw [h4, h3]; exact p7
  have e2 : st.relocated.pltRels = st.dynrel.pltRels := by rw [h4, h3]; exact p8
  have e3 : st.relocated.dynEntries = st.entries.dynEntries := by rw [h4, h3, h5]
  have e4 : st.relocated.copyRel = st.dynrel.copyRel := by rw [h4, h3]; exact p6
  refine ⟨?_, ?_, ?_, ?_, e1, e2, e3, ?_, ?_⟩
  · rw [h7, h6]
  · rw [h7, h6, h4]
  · rw [h7]
  · rw [h7]
  · rw [h7, h6]; exact e4
  · rw [h7, h6]; exact e3

/-- `F` sees neither the results of the scan, nor relocation offsets, nor values and sections -/
structure Blind (F : Symbol → γ) : Prop where
  scan : ScanBlind F
  reloc : ∀ s a, F { s with relocationOffset := a } = F s
  place : PlaceBlind F

theorem Stages.final_view (st : Stages sched w) (hF : Blind F) :
    st.final.symtab.view F = w.symtab.view F ∧ st.final.dynsym.view F = w.dynsym.view F := by
  obtain ⟨f1, f2, _⟩ := st.final_tables
  obtain ⟨p1, p2, _⟩ := st.patched_tables
  obtain ⟨q1, q2, _⟩ := st.filled_tables
  have h1 := scan_view hF.scan st.hscan
  have h2 := genDynRels_view (F := F) (G := F) hF.reloc hF.place st.hdynrel
  have h3 := special_view (F := F) (G := F) hF.place hF.place st.hspecial
  have h4 := handleRelocations_view hF.place st.hreloc
  have e1 : (st.filled.expandRest sched).symtab = st.filled.symtab := rfl
  have e2 : (st.filled.expandRest sched).dynsym = st.filled.dynsym := rfl
  exact ⟨by rw [f1, h4, h3.1, p1, h2.1, e1, q1, h1], by rw [f2, h3.2, p2, h2.2, e2, q2]⟩

end Writer
end Dld
