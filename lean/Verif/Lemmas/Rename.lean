import Verif.Spec.Rename
import Verif.Lemmas.HistSyms
import Verif.Lemmas.Symtab
/-! # The paths in the tables have no influence on anything but errors -/
namespace Dld

/-- a result, mapped, with the paths of its error renamed -/
def both {α β : Type} (f : Path → Path) (g : α → β) : M α → M β
  | .ok a => .ok (g a)
  | .error e => .error (e.ren f)

section
variable {f : Path → Path} {α β γ δ σ τ : Type}

theorem both_ok (g : α → β) (a : α) : both f g (.ok a) = .ok (g a) := rfl

theorem both_bind {x : M α} {y : M β} {p : α → β} (h : both f p x = y) {g : γ → δ} {k : α → M γ} {k' : β → M δ} (hk : ∀ a, both f g (k a) = k' (p a)) :
    both f g (x >>= k) = y >>= k' := by
  subst h
  cases x with
  | error e => rfl
  | ok a => exact hk a

theorem both_unwrap (p : α → β) (o : Option α) : both f p (unwrap o) = unwrap (o.map p) := by cases o <;> rfl

theorem both_id_unwrap (o : Option α) : both f id (unwrap o) = unwrap o := by cases o <;> rfl

theorem both_if {c : Prop} [Decidable c] {g : α → β} {x y : M α} {x' y' : M β} (hx : both f g x = x') (hy : both f g y = y') :
    both f g (if c then x else y) = if c then x' else y' := by
  split
  · exact hx
  · exact hy

theorem both_foldM' {F : σ → α → M σ} {F' : τ → β → M τ} {g : σ → τ} {p : α → β} : ∀ {l : List α} {s : σ}, (∀ s, ∀ a ∈ l, both f g (F s a) = F' (g s) (p a)) →
    both f g (foldM' F s l) = foldM' F' (g s) (l.map p)
  | [], _, _ => rfl
  | a :: l, s, h => by
    simp only [foldM', List.map_cons]
    rw [← h s a (.head _)]
    cases F s a with
    | error e => rfl
    | ok s' => exact both_foldM' fun s b hb => h s b (.tail _ hb)

theorem both_mapAccumM {F : σ → α → M (σ × β)} {F' : τ → α → M (τ × β)} {g : σ → τ} (h : ∀ s a, both f (fun e => (g e.1, e.2)) (F s a) = F' (g s) a) :
    ∀ {l : List α} {s : σ}, both f (fun e => (g e.1, e.2)) (mapAccumM F s l) = mapAccumM F' (g s) l
  | [], _ => rfl
  | a :: l, s => by
    simp only [mapAccumM]
    rw [← h s a]
    cases F s a with
    | error e => rfl
    | ok x =>
      obtain ⟨s', b⟩ := x
      simp only [both]
      rw [← both_mapAccumM h (l := l) (s := s')]
      cases mapAccumM F s' l with
      | error e => rfl
      | ok x => rfl

end

/-- the symbol with the path in it renamed -/
def Symbol.ren (f : Path → Path) (s : Symbol) : Symbol := { s with reference := f s.reference }

namespace SymbolTable
variable (f : Path → Path)

/-- the table with the paths in it renamed -/
def ren (t : SymbolTable) : SymbolTable := t.mapSyms (Symbol.ren f)

theorem get_ren (t : SymbolTable) (r : SymbolRef) : (t.ren f).get r = (t.get r).map (Symbol.ren f) := get_mapSyms _ _ _

theorem keys_ren (t : SymbolTable) : AMap.keys (t.ren f).symbols = AMap.keys t.symbols := by simp [AMap.keys, ren, mapSyms]

theorem symbols_ren (t : SymbolTable) (k : Nat) : AMap.get? (t.ren f).symbols k = (AMap.get? t.symbols k).map (Symbol.ren f) := get?_mapv _ _ _

theorem modify_ren (t : SymbolTable) (r : SymbolRef) (g : Symbol → Symbol) (h : ∀ s, g (s.ren f) = (g s).ren f) :
    (t.ren f).modify r g = (t.modify r g).ren f := by
  cases r with
  | named n =>
    simp only [modify, ren, mapSyms]
    rw [modify_mapv _ _ g g _ h]
  | «section» s i =>
    simp only [modify, ren, mapSyms]
    rw [modify_mapv _ (fun l : List Symbol => l.map (Symbol.ren f)) (fun l => l.modify i g) (fun l => l.modify i g)]
    intro l
    apply List.ext_getElem?
    intro j
    simp only [List.getElem?_modify, List.getElem?_map]
    cases l[j]? with
    | none => rfl
    | some x =>
      by_cases hij : i = j
      · simp [hij, h]
      · simp [hij]

theorem sorted_ren (order : List Nat → List Nat) (t : SymbolTable) : (t.ren f).sorted order = (t.sorted order).map (Symbol.ren f) := by
  unfold sorted
  have hle : ∀ a b : Symbol, sortLe (a.ren f) (b.ren f) = sortLe a b := fun _ _ => rfl
  rw [← stableSort_map hle, List.map_filterMap, keys_ren]
  congr 2
  funext k
  exact symbols_ren f t k

theorem chunk_ren (order : List Nat → List Nat) (t : SymbolTable) : (t.ren f).chunk order = t.chunk order := by
  unfold chunk
  rw [sorted_ren, List.flatMap_map]
  rfl

theorem totalLen_ren (t : SymbolTable) : (t.ren f).totalLen = t.totalLen := by simp [totalLen, ren, mapSyms]

theorem updateObjectSymbols_ren (t : SymbolTable) (a i : Nat) : (t.ren f).updateObjectSymbols a i = (t.updateObjectSymbols a i).ren f := by
  simp only [updateObjectSymbols, ren, mapSyms, List.map_map]
  congr 1
  apply List.map_congr_left
  intro e _
  obtain ⟨k, s⟩ := e
  show (if s.isObject then _ else _) = _
  by_cases hs : s.isObject
  · rw [if_pos hs]
    simp only [Function.comp, if_pos hs]
    rfl
  · rw [if_neg hs]
    simp only [Function.comp, if_neg hs]

theorem resolve_ren (old new : Symbol) : resolve (old.ren f) (new.ren f) = (resolve old new).map (Symbol.ren f) := by
  unfold resolve
  simp only [apply_ite (Option.map (Symbol.ren f)), Option.map_none, Option.map_some]
  rfl

/-- an addition with the paths renamed -/
def addRen : Except Path (SymbolTable × SymbolRef) → Except Path (SymbolTable × SymbolRef)
  | .ok e => .ok (e.1.ren f, e.2)
  | .error p => .error (f p)

theorem addSymbol_ren (t : SymbolTable) (s : Sym) (h g : UInt32) (p : Path) : (t.ren f).addSymbol s h g (f p) = addRen f (t.addSymbol s h g p) := by
  have e0 : ∀ p, ({ sym := s, hash := h, gnuHash := g, reference := f p } : Symbol) = Symbol.ren f { sym := s, hash := h, gnuHash := g, reference := p } :=
    fun _ => rfl
  unfold addSymbol
  by_cases hs : stType s.st_info = STT_SECTION
  · simp only [if_pos hs, addRen, ren, mapSyms]
    rw [get?_mapv, ← insert_mapv]
    cases AMap.get? t.sectionSyms s.st_shndx with
    | none => rfl
    | some l => simp [Symbol.ren]
  · simp only [if_neg hs]
    rw [symbols_ren, e0]
    cases AMap.get? t.symbols s.st_name with
    | none => simp [addRen, ren, mapSyms, Symbol.ren, Symbol.isLocal]
    | some old =>
      simp only [Option.map_some]
      rw [resolve_ren]
      cases resolve old { sym := s, hash := h, gnuHash := g, reference := p } with
      | none => rfl
      | some x =>
        simp only [Option.map_some, addRen, ren, mapSyms]
        rw [modify_mapv t.symbols (Symbol.ren f) (fun _ => x) (fun _ => x.ren f) _ fun _ => rfl]

theorem new_ren (h0 : f ⟨[], none⟩ = ⟨[], none⟩) (d : Bool) : (SymbolTable.new d).ren f = SymbolTable.new d := by
  cases d <;> simp [SymbolTable.new, addSymbol, nullSymbol, ren, mapSyms, Symbol.ren, stType, AMap.get?, h0, STT_SECTION]

end SymbolTable

namespace Writer
variable (f : Path → Path)
open SymbolTable

/-- the writer with the paths in its tables renamed -/
def ren (w : Writer) : Writer := { w with symtab := w.symtab.ren f, dynsym := w.dynsym.ren f }

theorem new_ren (h0 : f ⟨[], none⟩ = ⟨[], none⟩) (o : Options) : both f (ren f) (new o) = new o := by
  unfold new
  refine both_bind (both_id_unwrap _) fun a => ?_
  show Except.ok _ = _
  simp only [ren, SymbolTable.new_ren f h0, id]
  rfl

theorem modChunk_ren (w : Writer) (r : SectionRef) (g : Chunk → Chunk) : both f (ren f) (w.modChunk r g) = (w.ren f).modChunk r g := by
  unfold modChunk
  refine both_bind (p := id) (both_id_unwrap _) fun s => ?_
  exact both_if rfl rfl

theorem pushSection_ren (w : Writer) (n : Name) (sh : SectionHeader) (d : Option Bytes) :
    both f (fun e => (e.1.ren f, e.2)) (w.pushSection n sh d) = (w.ren f).pushSection n sh d := by
  unfold pushSection
  simp only [show (w.ren f).sections = w.sections from rfl, show (w.ren f).shstr = w.shstr from rfl]
  refine both_if rfl ?_
  cases w.sections[(w.shstr.getOrCreate n).1.index]? with
  | none => rfl
  | some s =>
    cases d with
    | some d => rfl
    | none => exact both_if rfl rfl

theorem addSymbol_ren (w : Writer) (s : Sym) (sec : Option SectionRef) (n : Name) (p : Path) :
    both f (fun e => (e.1.ren f, e.2)) (w.addSymbol s sec n p) = (w.ren f).addSymbol s sec n (f p) := by
  unfold addSymbol
  have e := SymbolTable.addSymbol_ren f w.symtab { s with st_name := u32 (w.symstr.getOrCreate n).1.offset } (elfHash n) (elfGnuHash n) p
  simp only []
  rw [show (w.ren f).symtab = w.symtab.ren f from rfl, show (w.ren f).symstr = w.symstr from rfl, e]
  cases w.symtab.addSymbol { s with st_name := u32 (w.symstr.getOrCreate n).1.offset } (elfHash n) (elfGnuHash n) p with
  | error q => rfl
  | ok x =>
    obtain ⟨t, r⟩ := x
    simp only [addRen]
    refine both_bind (p := ren f) ?_ fun a => rfl
    unfold noteSymbol
    cases sec with
    | none => rfl
    | some sr => exact both_if (modChunk_ren f _ _ _) rfl

theorem addDynSymbol_ren (w : Writer) (s : Sym) (n : Name) (p : Path) :
    both f (fun e => (e.1.ren f, e.2)) (w.addDynSymbol s n p) = (w.ren f).addDynSymbol s n (f p) := by
  unfold addDynSymbol
  have e := SymbolTable.addSymbol_ren f w.dynsym { s with st_shndx := SHN_UNDEF, st_value := 0, st_name := u32 (w.dynstr.getOrCreate n).1.offset }
    (elfHash n) (elfGnuHash n) p
  simp only []
  rw [show (w.ren f).dynsym = w.dynsym.ren f from rfl, show (w.ren f).dynstr = w.dynstr from rfl, show (w.ren f).symstr = w.symstr from rfl, e]
  cases w.dynsym.addSymbol { s with st_shndx := SHN_UNDEF, st_value := 0, st_name := u32 (w.dynstr.getOrCreate n).1.offset } (elfHash n) (elfGnuHash n) p with
  | error q => rfl
  | ok x =>
    obtain ⟨t, r⟩ := x
    simp only [addRen]
    cases w.symstr.get n with
    | none => rfl
    | some y =>
      simp only []
      rw [show (w.ren f).symtab = w.symtab.ren f from rfl, SymbolTable.get_ren]
      cases w.symtab.get (.named (u32 y.offset)) with
      | none => rfl
      | some z =>
        simp only [Option.map_some]
        rw [SymbolTable.modify_ren f]
        all_goals first | rfl | (intro; rfl)

theorem addRelocation_ren (w : Writer) (rel : Rela) (r : SymbolRef) (sr : SectionRef) (p : Path) :
    both f (ren f) (w.addRelocation rel r sr p) = (w.ren f).addRelocation rel r sr (f p) := by
  unfold addRelocation
  exact both_if rfl (modChunk_ren f _ _ _)

theorem symbolName_ren (w : Writer) (r : SymbolRef) : both f id (w.symbolName r) = (w.ren f).symbolName r := by
  cases r with
  | named n =>
    unfold symbolName
    exact both_bind (p := id) (both_id_unwrap _) fun _ => rfl
  | «section» _ _ => rfl

theorem undefinedSymbols_ren (w : Writer) (order : List Nat → List Nat) : (w.ren f).undefinedSymbols order = w.undefinedSymbols order := by
  unfold undefinedSymbols
  rw [show (w.ren f).symtab = w.symtab.ren f from rfl, SymbolTable.keys_ren]
  congr 1
  apply List.filter_congr
  intro k _
  rw [SymbolTable.symbols_ren, Option.any_map]
  rfl

/-! ## The layout -/

/-- the state of the scan with the paths renamed -/
def ScanState.ren (st : ScanState) : ScanState := { st with symtab := st.symtab.ren f }

theorem scanOne_ren (st : ScanState) (e : Rela × SymbolRef) : both f (fun x => (x.1.ren f, x.2)) (scanOne st e) = scanOne (st.ren f) e := by
  obtain ⟨rel, r⟩ := e
  unfold scanOne
  have hg : both f (Symbol.ren f) (unwrap (st.symtab.get r)) = unwrap ((st.ren f).symtab.get r) := by
    rw [both_unwrap]; congr 1; exact (SymbolTable.get_ren f _ _).symm
  refine both_if (both_bind hg fun s => ?_) (both_if (both_bind hg fun s => ?_) rfl)
  · refine both_if ?_ rfl
    simp only [both, ScanState.ren]
    rw [SymbolTable.modify_ren f]
    all_goals first | rfl | (intro; rfl)
  · refine both_if ?_ rfl
    simp only [both, ScanState.ren]
    rw [SymbolTable.modify_ren f]
    all_goals first | rfl | (intro; rfl)

theorem scanRelocations_ren (w : Writer) : both f (ren f) w.scanRelocations = (w.ren f).scanRelocations := by
  unfold scanRelocations
  refine both_bind (p := fun x => (x.1.ren f, x.2)) (both_mapAccumM fun st s => ?_) fun x => rfl
  unfold scanSection
  refine both_bind (p := fun x => (x.1.ren f, x.2)) (both_mapAccumM fun st c => ?_) fun x => rfl
  unfold scanChunk
  exact both_bind (p := fun x => (x.1.ren f, x.2)) (both_mapAccumM (scanOne_ren f)) fun x => rfl

theorem expand_ren (sched : Sched) (w : Writer) (s : Section) : expand sched (w.ren f) s = expand sched w s := by
  unfold expand
  cases s.kind with
  | symtab => simp only [show (w.ren f).symtab = w.symtab.ren f from rfl, SymbolTable.chunk_ren, SymbolTable.totalLen_ren]; rfl
  | dynsym => simp only [show (w.ren f).dynsym = w.dynsym.ren f from rfl, SymbolTable.chunk_ren, SymbolTable.totalLen_ren]; rfl
  | _ => rfl

theorem expandDynsym_ren (sched : Sched) (w : Writer) : (w.ren f).expandDynsym sched = (w.expandDynsym sched).ren f := by
  unfold expandDynsym
  rw [show expand sched (w.ren f) = expand sched w from funext fun s => expand_ren f sched w s]
  rfl

theorem expandRest_ren (sched : Sched) (w : Writer) : (w.ren f).expandRest sched = (w.expandRest sched).ren f := by
  unfold expandRest
  rw [show expand sched (w.ren f) = expand sched w from funext fun s => expand_ren f sched w s]
  rfl

theorem fillHashes_ren (sched : Sched) (w : Writer) : both f (ren f) (w.fillHashes sched) = (w.ren f).fillHashes sched := by
  unfold fillHashes
  simp only [show (w.ren f).dynsym = w.dynsym.ren f from rfl, SymbolTable.sorted_ren, List.map_map]
  exact both_bind (p := id) (both_id_unwrap _) fun a => both_bind (p := id) (both_id_unwrap _) fun b => rfl

/-- the state of the loop over the dynamic symbols with the paths renamed -/
def DynState.ren (st : DynState) : DynState := { st with symtab := st.symtab.ren f, dynsym := st.dynsym.ren f }

theorem dynSymIndices_ren (l : List Symbol) : dynSymIndices (l.map (Symbol.ren f)) = dynSymIndices l := by
  unfold dynSymIndices
  rw [List.zipIdx_map, List.foldl_map]
  rfl

theorem dynRelStep_ren (ix : List (Nat × Nat)) (st : DynState) (k : Nat) : both f (DynState.ren f) (dynRelStep ix st k) = dynRelStep ix (st.ren f) k := by
  unfold dynRelStep
  refine both_bind (p := Symbol.ren f) ?_ fun s => ?_
  · rw [both_unwrap]; congr 1; exact (SymbolTable.symbols_ren f _ _).symm
  rw [show (s.ren f).dynamic = s.dynamic from rfl]
  cases s.dynamic with
  | none => rfl
  | some d =>
    simp only [show (s.ren f).inGot = s.inGot from rfl, show (s.ren f).inGotPlt = s.inGotPlt from rfl]
    refine both_bind (p := id) (both_id_unwrap _) fun i => ?_
    have key : ∀ st : DynState, both f (DynState.ren f) (do
          let ds ← unwrap (st.dynsym.get d)
          let st : DynState :=
            if ds.isObject then
              let (off, copyRel) := st.copyRel.insert d ds.sym.st_size
              { st with
                copyRel
                dynRels := st.dynRels ++ [rela off i R_X86_64_COPY]
                dynsym := st.dynsym.modify d fun s => { s with sym := { s.sym with st_value := off } } }
            else st
          match s.inGotPlt with
          | some off =>
            .ok { st with
              symtab := st.symtab.modify (.named k) fun s =>
                { s with relocationOffset := some st.pltRels.length }
              pltRels := st.pltRels ++ [rela off i R_X86_64_JUMP_SLOT] }
          | none => .ok st) = (do
          let ds ← unwrap ((st.ren f).dynsym.get d)
          let st : DynState :=
            if ds.isObject then
              let (off, copyRel) := (st.ren f).copyRel.insert d ds.sym.st_size
              { (st.ren f) with
                copyRel
                dynRels := (st.ren f).dynRels ++ [rela off i R_X86_64_COPY]
                dynsym := (st.ren f).dynsym.modify d fun s => { s with sym := { s.sym with st_value := off } } }
            else st.ren f
          match s.inGotPlt with
          | some off =>
            .ok { st with
              symtab := st.symtab.modify (.named k) fun s =>
                { s with relocationOffset := some st.pltRels.length }
              pltRels := st.pltRels ++ [rela off i R_X86_64_JUMP_SLOT] }
          | none => .ok st) := by
      intro st
      refine both_bind (p := Symbol.ren f) ?_ fun ds => ?_
      · rw [both_unwrap]; congr 1; exact (SymbolTable.get_ren f _ _).symm
      rw [show (ds.ren f).isObject = ds.isObject from rfl, show (ds.ren f).sym = ds.sym from rfl]
      cases s.inGotPlt with
      | none =>
        by_cases ho : ds.isObject
        · simp only [if_pos ho, both, DynState.ren]
          rw [SymbolTable.modify_ren f]
          all_goals first | rfl | (intro; rfl)
        · simp only [if_neg ho, both]
      | some off =>
        by_cases ho : ds.isObject
        · simp only [if_pos ho, both, DynState.ren]
          rw [SymbolTable.modify_ren f, SymbolTable.modify_ren f]
          all_goals (intro; rfl)
        · simp only [if_neg ho, both, DynState.ren]
          rw [SymbolTable.modify_ren f]
          all_goals first | rfl | (intro; rfl)
    cases s.inGot with
    | none => exact key st
    | some off => exact key { st with dynRels := st.dynRels ++ [rela off i R_X86_64_GLOB_DAT] }

theorem genDynRels_ren (sched : Sched) (w : Writer) : both f (ren f) (w.genDynRels sched) = (w.ren f).genDynRels sched := by
  unfold genDynRels
  simp only [show (w.ren f).dynsym = w.dynsym.ren f from rfl, SymbolTable.sorted_ren, dynSymIndices_ren, show (w.ren f).symtab = w.symtab.ren f from rfl,
    SymbolTable.keys_ren]
  refine both_bind (p := DynState.ren f) ?_ fun st => rfl
  have := both_foldM' (f := f) (F := dynRelStep (dynSymIndices (w.dynsym.sorted sched.dynIter))) (g := DynState.ren f) (p := id)
    (l := sched.symIter (AMap.keys w.symtab.symbols))
    (s := { symtab := w.symtab, dynsym := w.dynsym, copyRel := w.copyRel, dynRels := w.dynRels, pltRels := w.pltRels }) fun s a _ => dynRelStep_ren f _ s a
  rw [List.map_id] at this
  exact this

/-- loops whose steps can only panic -/
theorem both_id_foldM' {σ α : Type} {F : σ → α → M σ} (h : ∀ s a, both f id (F s a) = F s a) (s : σ) (l : List α) : both f id (foldM' F s l) = foldM' F s l := by
  have := both_foldM' (f := f) (F := F) (F' := F) (g := id) (p := id) (l := l) (s := s) fun s a _ => h s a
  rwa [List.map_id] at this

theorem sizeDynamic_ren (w : Writer) : both f (ren f) w.sizeDynamic = (w.ren f).sizeDynamic := by
  unfold sizeDynamic
  exact both_bind (p := id) (both_id_foldM' f (fun n s => both_bind (p := id) (both_id_unwrap _) fun _ => rfl) _ _) fun n => rfl

theorem sortSecs_ren (sched : Sched) (w : Writer) : both f (ren f) (w.sortSecs sched) = (w.ren f).sortSecs sched := by
  unfold sortSecs
  refine both_bind (p := id) ?_ fun n => rfl
  show _ = sortSections sched.secOrder w.sections
  cases w.sections <;> rfl

theorem addDynEntries_ren (w : Writer) : both f (ren f) w.addDynEntries = (w.ren f).addDynEntries := by
  unfold addDynEntries
  exact both_bind (p := id) (both_id_foldM' f (fun n s => both_bind (p := id) (both_id_unwrap _) fun _ => rfl) _ _) fun n => rfl

theorem both_i64 (x : Int) : both f id (i64 x) = i64 x := both_if rfl rfl
theorem both_i32 (x : Int) : both f id (i32 x) = i32 x := both_if rfl rfl
theorem both_writeAt (b : Bytes) (o : Nat) (v : Bytes) : both f id (writeAt b o v) = writeAt b o v := both_if rfl rfl

theorem patchPltEntry_ren (t : SymbolTable) (a b : Nat) (bufs : Bytes × Bytes) (e : SymbolRef × Nat) :
    both f id (patchPltEntry t a b bufs e) = patchPltEntry (t.ren f) a b bufs e := by
  unfold patchPltEntry
  refine both_bind (p := Symbol.ren f) ?_ fun s => ?_
  · rw [both_unwrap]; congr 1; exact (SymbolTable.get_ren f _ _).symm
  refine both_bind (p := id) (both_id_unwrap _) fun i => ?_
  refine both_bind (p := id) (both_i64 f _) fun ea => ?_
  refine both_bind (p := id) (both_writeAt f _ _ _) fun g => ?_
  refine both_bind (p := id) (both_i32 f _) fun v => ?_
  refine both_bind (p := id) (both_writeAt f _ _ _) fun g1 => ?_
  refine both_bind (p := id) (both_id_unwrap _) fun i1 => ?_
  refine both_bind (p := id) (both_writeAt f _ _ _) fun g2 => ?_
  refine both_bind (p := id) (both_i32 f _) fun v2 => ?_
  exact both_bind (p := id) (both_writeAt f _ _ _) fun g3 => rfl

theorem patchPlt_ren (sched : Sched) (w : Writer) : both f (ren f) (w.patchPlt sched) = (w.ren f).patchPlt sched := by
  unfold patchPlt
  refine both_bind (p := id) (both_id_unwrap _) fun a => ?_
  refine both_bind (p := id) (both_id_unwrap _) fun b => ?_
  refine both_bind (p := id) (both_id_unwrap _) fun c => ?_
  refine both_bind (p := id) (both_id_unwrap _) fun d => ?_
  refine both_bind (p := id) ?_ fun e => ?_
  · unfold patchPltHeader
    refine both_bind (p := id) (both_i32 f _) fun v => ?_
    refine both_bind (p := id) (both_writeAt f _ _ _) fun g => ?_
    refine both_bind (p := id) (both_i32 f _) fun v2 => ?_
    exact both_writeAt f _ _ _
  refine both_bind (p := id) ?_ fun x => rfl
  have := both_foldM' (f := f) (F := patchPltEntry w.symtab a.sh.sh_addr b.sh.sh_addr) (F' := patchPltEntry (w.symtab.ren f) a.sh.sh_addr b.sh.sh_addr) (g := id) (p := id)
    (l := (sched.gotPltIter (AMap.keys w.gotPlt)).filterMap fun r => (AMap.get? w.gotPlt r).map fun o => (r, o)) (s := (e, d.data))
    fun s a' _ => patchPltEntry_ren f _ _ _ s a'
  rw [List.map_id] at this
  exact this

theorem assignSectionAddresses_ren (sched : Sched) (w : Writer) : both f (ren f) (w.assignSectionAddresses sched) = (w.ren f).assignSectionAddresses sched := by
  unfold assignSectionAddresses
  refine both_bind (scanRelocations_ren f w) fun a => ?_
  refine both_bind ((fillHashes_ren f sched _).trans (congrArg (fillHashes sched) (expandDynsym_ren f sched _).symm)) fun b => ?_
  refine both_bind ((genDynRels_ren f sched _).trans (congrArg (genDynRels sched) (expandRest_ren f sched _).symm)) fun c => ?_
  refine both_bind (sizeDynamic_ren f c) fun d => ?_
  refine both_bind (sortSecs_ren f sched d) fun e => ?_
  refine both_bind (addDynEntries_ren f _) fun g => ?_
  exact patchPlt_ren f sched g

theorem modifyChunk_ren (s : Section) (i : Nat) (g : Chunk → Chunk) : both f id (s.modifyChunk i g) = s.modifyChunk i g := both_if rfl rfl

theorem boundSymbols_ren (ss : StringTable) (a b : Name) (t : SymbolTable) (s : Section) :
    both f (fun e => (e.1.ren f, e.2)) (boundSymbols ss a b t s) = boundSymbols ss a b (t.ren f) s := by
  have key : ∀ s : Section, both f (fun e => (e.1.ren f, e.2)) (match ss.get b with
      | some e => do
        let r := SymbolRef.named (u32 e.offset)
        let _ ← unwrap (t.get r)
        let t := t.modify r fun x => { x with sym := { x.sym with st_value := s.sizeOnDisk } }
        let s ← if s.chunks.length = 0 then .error .panic
          else s.modifyChunk (s.chunks.length - 1) (·.addSymbol r)
        .ok (t, s)
      | none => .ok (t, s)) = (match ss.get b with
      | some e => do
        let r := SymbolRef.named (u32 e.offset)
        let _ ← unwrap ((t.ren f).get r)
        let t := (t.ren f).modify r fun x => { x with sym := { x.sym with st_value := s.sizeOnDisk } }
        let s ← if s.chunks.length = 0 then .error .panic
          else s.modifyChunk (s.chunks.length - 1) (·.addSymbol r)
        .ok (t, s)
      | none => .ok (t.ren f, s)) := by
    intro s
    cases ss.get b with
    | none => rfl
    | some e =>
      refine both_bind (p := Symbol.ren f) ?_ fun _ => ?_
      · rw [both_unwrap]; congr 1; exact (SymbolTable.get_ren f _ _).symm
      rw [SymbolTable.modify_ren f]
      · by_cases hc : s.chunks.length = 0
        · simp only [if_pos hc]
          rfl
        · simp only [if_neg hc]
          exact both_bind (p := id) (modifyChunk_ren f _ _ _) fun _ => rfl
      · intro; rfl
  unfold boundSymbols
  cases ss.get a with
  | none => exact key s
  | some e => exact both_bind (p := id) (modifyChunk_ren f _ _ _) fun s => key s

theorem handleSpecialSymbols_ren (w : Writer) : both f (ren f) w.handleSpecialSymbols = (w.ren f).handleSpecialSymbols := by
  unfold handleSpecialSymbols
  refine both_bind (p := id) (both_id_unwrap _) fun a => ?_
  refine both_bind (p := id) (both_id_unwrap _) fun b => ?_
  refine both_bind (p := id) (both_id_unwrap _) fun c => ?_
  have key : ∀ t : SymbolTable, both f (fun e => (e.1.ren f, e.2)) (mapAccumM (specialStep w.shstr w.symstr [b.sh.sh_name, c.sh.sh_name]) t w.sections) =
      mapAccumM (specialStep w.shstr w.symstr [b.sh.sh_name, c.sh.sh_name]) (t.ren f) w.sections := by
    intro t
    refine both_mapAccumM fun t s => ?_
    unfold specialStep
    exact both_if rfl (both_if (boundSymbols_ren f _ _ _ _ _) (both_if (boundSymbols_ren f _ _ _ _ _) rfl))
  have e : (match (w.ren f).symstr.get b!"_GLOBAL_OFFSET_TABLE_" with
    | some e => (w.ren f).symtab.modify (.named (u32 e.offset)) fun s =>
        { s with sym := { s.sym with st_shndx := u16 a.index, st_value := a.sh.sh_addr } }
    | none => (w.ren f).symtab) = SymbolTable.ren f (match w.symstr.get b!"_GLOBAL_OFFSET_TABLE_" with
    | some e => w.symtab.modify (.named (u32 e.offset)) fun s =>
        { s with sym := { s.sym with st_shndx := u16 a.index, st_value := a.sh.sh_addr } }
    | none => w.symtab) := by
    show (match w.symstr.get b!"_GLOBAL_OFFSET_TABLE_" with | some e => _ | none => _) = _
    cases w.symstr.get b!"_GLOBAL_OFFSET_TABLE_" with
    | none => rfl
    | some e => exact SymbolTable.modify_ren f _ _ _ fun _ => rfl
  refine both_bind ((key _).trans (congrArg (fun t => mapAccumM (specialStep w.shstr w.symstr [b.sh.sh_name, c.sh.sh_name]) t w.sections) e.symm)) fun x => ?_
  refine both_bind (p := id) (both_id_unwrap _) fun d => ?_
  simp only [both, ren, id]
  rw [SymbolTable.updateObjectSymbols_ren]

theorem applyRelocation_ren (a : Nat) (d : Bytes) (rel : Rela) (s : Symbol) (t : SymbolTable) (g p : Nat) :
    both f id (applyRelocation a d rel s t g p) = applyRelocation a d rel (s.ren f) (t.ren f) g p := by
  unfold applyRelocation
  refine both_bind (p := id) ?_ fun v => ?_
  · unfold relocS
    rw [show (s.ren f).dynamic = s.dynamic from rfl]
    cases s.dynamic with
    | none => exact both_i64 f _
    | some d =>
      refine both_if (both_bind (p := Symbol.ren f) ?_ fun _ => both_i64 f _) (both_i64 f _)
      rw [both_unwrap]; congr 1; exact (SymbolTable.get_ren f _ _).symm
  have hg : ∀ a b c, both f id (gotDisp s a b c) = gotDisp (s.ren f) a b c := by
    intro a b c
    unfold gotDisp
    refine both_bind (p := id) (both_id_unwrap _) fun _ => ?_
    refine both_bind (p := id) (both_i64 f _) fun _ => ?_
    refine both_bind (p := id) (both_i64 f _) fun _ => ?_
    refine both_bind (p := id) (both_i64 f _) fun _ => ?_
    exact both_i64 f _
  have hcall : ∀ d o v, both f id (relaxCallJmp d o v) = relaxCallJmp d o v := by
    intro d o v
    unfold relaxCallJmp
    refine both_if rfl ?_
    split
    · exact both_writeAt f _ _ _
    · exact both_writeAt f _ _ _
    · rfl
  have hlea : ∀ d o v, both f id (relaxMovLea d o v) = relaxMovLea d o v := by
    intro d o v
    unfold relaxMovLea
    refine both_if rfl ?_
    split
    · split
      · exact both_writeAt f _ _ _
      · rfl
    · rfl
  refine both_bind (p := id) (both_i64 f _) fun _ => ?_
  refine both_bind (p := id) (both_i64 f _) fun _ => ?_
  have hgot : ∀ x y z o, both f id (do let v ← gotDisp s x y z; let v ← i32 v; writeAt d o (leInt 4 v)) =
      (do let v ← gotDisp (s.ren f) x y z; let v ← i32 v; writeAt d o (leInt 4 v)) := fun x y z o =>
    both_bind (p := id) (hg _ _ _) fun _ => both_bind (p := id) (both_i32 f _) fun _ => both_writeAt f _ _ _
  refine both_if rfl ?_
  refine both_if (both_bind (p := id) (both_i64 f _) fun _ => both_writeAt f _ _ _) ?_
  refine both_if (both_bind (p := id) (both_i64 f _) fun _ => both_bind (p := id) (both_i32 f _) fun _ => both_writeAt f _ _ _) ?_
  refine both_if (both_bind (p := id) (both_i64 f _) fun _ => both_writeAt f _ _ _) ?_
  refine both_if (both_bind (p := id) (both_i64 f _) fun _ => both_bind (p := id) (both_i64 f _) fun _ => both_bind (p := id) (both_i32 f _) fun _ =>
    both_writeAt f _ _ _) ?_
  refine both_if (hgot _ _ _ _) ?_
  refine both_if (both_if (both_bind (p := id) (both_i64 f _) fun _ => both_bind (p := id) (both_i64 f _) fun _ => both_bind (p := id) (both_i32 f _) fun _ =>
    hcall _ _ _) (hgot _ _ _ _)) ?_
  refine both_if (both_if (both_bind (p := id) (both_i64 f _) fun _ => both_bind (p := id) (both_i64 f _) fun _ => both_bind (p := id) (both_i32 f _) fun _ =>
    hlea _ _ _) (hgot _ _ _ _)) ?_
  refine both_if (both_if (hgot _ _ _ _) rfl) ?_
  refine both_if (both_bind (p := id) (both_i64 f _) fun _ => both_bind (p := id) (both_i32 f _) fun _ => both_writeAt f _ _ _) ?_
  refine both_if ?_ rfl
  exact both_bind (p := id) (both_id_unwrap _) fun _ => both_bind (p := id) (both_i64 f _) fun _ => both_bind (p := id) (both_i64 f _) fun _ =>
    both_bind (p := id) (both_i64 f _) fun _ => both_bind (p := id) (both_i32 f _) fun _ => both_writeAt f _ _ _

theorem applyRelocations_ren (c : Chunk) (g p : Nat) (t d : SymbolTable) :
    both f id (c.applyRelocations g p t d) = c.applyRelocations g p (t.ren f) (d.ren f) := by
  unfold Chunk.applyRelocations
  refine both_bind (p := id) ?_ fun _ => rfl
  have := both_foldM' (f := f) (F := fun data (e : Rela × SymbolRef) => do
      let addr ← unwrap c.address
      let symbol ← unwrap (t.get e.2)
      applyRelocation addr data e.1 symbol d g p) (F' := fun data (e : Rela × SymbolRef) => do
      let addr ← unwrap c.address
      let symbol ← unwrap ((t.ren f).get e.2)
      applyRelocation addr data e.1 symbol (d.ren f) g p) (g := id) (p := id) (l := c.relocations) (s := c.data) (by
    intro s e _
    refine both_bind (p := id) (both_id_unwrap _) fun _ => both_bind (p := Symbol.ren f) ?_ fun _ => applyRelocation_ren f _ _ _ _ _ _ _
    rw [both_unwrap]; congr 1; exact (SymbolTable.get_ren f _ _).symm)
  rw [List.map_id] at this
  exact this

theorem patchSymbols_ren (b i : Nat) (t : SymbolTable) (l : List SymbolRef) : Section.patchSymbols b i (t.ren f) l = (Section.patchSymbols b i t l).ren f := by
  unfold Section.patchSymbols
  induction l generalizing t with
  | nil => rfl
  | cons r l ih =>
    simp only [List.foldl_cons]
    rw [SymbolTable.modify_ren f]
    · exact ih _
    · cases r <;> (intro; rfl)

theorem patchChunks_ren (i : Nat) (l : List Chunk) : ∀ (b : Nat) (t : SymbolTable), Section.patchChunks i b (t.ren f) l = (Section.patchChunks i b t l).ren f := by
  induction l with
  | nil => intros; rfl
  | cons c l ih =>
    intro b t
    simp only [Section.patchChunks]
    rw [patchSymbols_ren, ih]

theorem handleRelocations_ren (w : Writer) : both f (ren f) w.handleRelocations = (w.ren f).handleRelocations := by
  unfold handleRelocations
  refine both_bind (p := id) (both_id_unwrap _) fun a => ?_
  refine both_bind (p := id) (both_id_unwrap _) fun b => ?_
  refine both_bind (p := id) (both_id_unwrap _) fun c => ?_
  refine both_bind (p := id) (both_id_unwrap _) fun d => ?_
  have e : ∀ (l : List Section) (t : SymbolTable), l.foldl (fun t s => s.patchSymbolValues t) (t.ren f) = (l.foldl (fun t s => s.patchSymbolValues t) t).ren f := by
    intro l
    induction l with
    | nil => intros; rfl
    | cons s l ih =>
      intro t
      simp only [List.foldl_cons]
      rw [show s.patchSymbolValues (t.ren f) = (s.patchSymbolValues t).ren f from patchChunks_ren f _ _ _ _, ih]
  simp only [id, show (w.ren f).symtab = w.symtab.ren f from rfl, show (w.ren f).sections = w.sections from rfl, e, show (w.ren f).dynsym = w.dynsym.ren f from rfl]
  refine both_bind (p := id) ?_ fun x => rfl
  refine both_mapAccumM (g := id) fun _ s => ?_
  refine both_if (both_bind (p := id) ?_ fun x => rfl) rfl
  refine both_mapAccumM (g := id) fun _ c => ?_
  exact both_bind (p := id) (applyRelocations_ren f _ _ _ _ _) fun _ => rfl

theorem computeTables_ren (w : Writer) : both f (ren f) w.computeTables = (w.ren f).computeTables := by
  unfold computeTables
  refine both_bind (p := id) (both_id_unwrap _) fun a => ?_
  refine both_bind (p := id) (both_id_unwrap _) fun b => ?_
  exact both_bind (p := id) (both_id_unwrap _) fun c => rfl

theorem finishHeader_ren (w : Writer) : both f (ren f) w.finishHeader = (w.ren f).finishHeader := by
  unfold finishHeader
  have tail : ∀ (eh : Header), both f (ren f) (match w.programHeaders with
      | [] => .error .panic
      | ph :: phs =>
        if eh.e_phnum * eh.e_phentsize ≥ 65536 then .error .panic
        else
          let size := eh.e_phnum * eh.e_phentsize
          let ph := { ph with
            p_offset := eh.e_phoff, p_memsz := size, p_filesz := size
            p_vaddr := eh.e_phoff + w.startPVaddr, p_paddr := eh.e_phoff + w.startPVaddr }
          .ok { w with eh, programHeaders := ph :: phs }) = (match (w.ren f).programHeaders with
      | [] => .error .panic
      | ph :: phs =>
        if eh.e_phnum * eh.e_phentsize ≥ 65536 then .error .panic
        else
          let size := eh.e_phnum * eh.e_phentsize
          let ph := { ph with
            p_offset := eh.e_phoff, p_memsz := size, p_filesz := size
            p_vaddr := eh.e_phoff + (w.ren f).startPVaddr, p_paddr := eh.e_phoff + (w.ren f).startPVaddr }
          .ok { (w.ren f) with eh, programHeaders := ph :: phs }) := by
    intro eh
    rw [show (w.ren f).programHeaders = w.programHeaders from rfl]
    cases w.programHeaders with
    | nil => rfl
    | cons ph phs => exact both_if rfl rfl
  rw [show (w.ren f).symstr = w.symstr from rfl]
  cases w.symstr.get b!"_start" with
  | none => exact both_bind (p := id) (both_id_unwrap _) fun c => tail _
  | some e =>
    refine both_bind (p := Symbol.ren f) ?_ fun s => both_bind (p := id) (both_id_unwrap _) fun c => tail _
    rw [both_unwrap]; congr 1; exact (SymbolTable.get_ren f _ _).symm

theorem computeSections_ren (sched : Sched) (w : Writer) : both f (ren f) (w.computeSections sched) = (w.ren f).computeSections sched := by
  unfold computeSections
  refine both_bind (assignSectionAddresses_ren f sched w) fun a => ?_
  refine both_bind (handleSpecialSymbols_ren f a) fun b => ?_
  refine both_bind (handleRelocations_ren f b) fun c => ?_
  refine both_bind (computeTables_ren f c) fun d => ?_
  exact finishHeader_ren f d

theorem finalizeSec_ren (sched : Sched) (w : Writer) (s : Section) : both f id (finalizeSec sched w s) = finalizeSec sched (w.ren f) s := by
  have key : ∀ s : Section, both f id (match s.link with
      | none => .ok s
      | some p => do
        let l ← w.sec p
        .ok { s with sh := { s.sh with sh_link := u32 l.index } }) = (match s.link with
      | none => .ok s
      | some p => do
        let l ← (w.ren f).sec p
        .ok { s with sh := { s.sh with sh_link := u32 l.index } }) := by
    intro s
    cases s.link with
    | none => rfl
    | some p => exact both_bind (p := id) (both_id_unwrap _) fun _ => rfl
  unfold finalizeSec
  cases s.kind with
  | symtab =>
    simp only [show (w.ren f).symtab = w.symtab.ren f from rfl, SymbolTable.chunk_ren]
    exact both_bind (p := id) (modifyChunk_ren f _ _ _) key
  | dynsym =>
    simp only [show (w.ren f).dynsym = w.dynsym.ren f from rfl, SymbolTable.chunk_ren]
    exact both_bind (p := id) (modifyChunk_ren f _ _ _) key
  | _ => exact key _

theorem writeSections_ren (sched : Sched) (w : Writer) (l : List Section) : ∀ o, both f id (writeSections sched w o l) = writeSections sched (w.ren f) o l := by
  induction l with
  | nil => intros; rfl
  | cons s l ih =>
    intro o
    simp only [writeSections]
    exact both_bind (p := id) (finalizeSec_ren f _ _ _) fun _ => both_bind (p := id) (ih _) fun _ => rfl

theorem writeToDisk_ren (sched : Sched) (w : Writer) : both f id (w.writeToDisk sched) = (w.ren f).writeToDisk sched := by
  unfold writeToDisk
  exact both_bind (p := id) (writeSections_ren f _ _ _ _) fun _ => rfl

end Writer
end Dld

namespace Dld
namespace Linker
variable (f : Path → Path)
open Writer

/-- the object with its path renamed -/
def Obj.ren (o : Obj) : Obj := { o with path := f o.path }

/-- the state of the loops over an object with the paths renamed -/
def pairRen (st : Obj × Writer) : Obj × Writer := (st.1.ren f, st.2.ren f)

theorem both_orErr {α : Type} (p : Path) (k : ErrKind) (hk : k.ren f = k) (o : Option α) : both f id (orErr p k o) = orErr (f p) k o := by
  cases o with
  | none => simp [orErr, both, Fail.ren, hk]
  | some a => rfl

theorem processSection_ren (st : Obj × Writer) (e : SectionHeader × Nat) : both f (pairRen f) (processSection st e) = processSection (pairRen f st) e := by
  obtain ⟨o, w⟩ := st
  obtain ⟨sh, i⟩ := e
  unfold processSection
  refine both_if rfl ?_
  refine both_bind (p := id) (both_orErr f _ _ rfl _) fun n => ?_
  refine both_bind (p := id) ?_ fun d => both_bind (pushSection_ren f _ _ _ _) fun x => rfl
  unfold sectionData
  exact both_if rfl (both_if rfl rfl)

/-- loops -/
theorem both_loop {σ τ α : Type} {F : σ → α → M σ} {F' : τ → α → M τ} {g : σ → τ} (h : ∀ s a, both f g (F s a) = F' (g s) a) (l : List α) (s : σ) :
    both f g (foldM' F s l) = foldM' F' (g s) l := by
  have := both_foldM' (f := f) (F := F) (F' := F') (g := g) (p := id) (l := l) (s := s) fun s a _ => h s a
  rwa [List.map_id] at this

theorem processSections_ren (o : Obj) (w : Writer) : both f (pairRen f) (processSections o w) = processSections (o.ren f) (w.ren f) :=
  both_loop f (g := pairRen f) (processSection_ren f) _ _

theorem processSymbol_ren (st : Obj × Writer) (s : Sym) : both f (pairRen f) (processSymbol st s) = processSymbol (pairRen f st) s := by
  obtain ⟨o, w⟩ := st
  unfold processSymbol
  refine both_bind (p := id) (both_orErr f _ _ rfl _) fun n => ?_
  exact both_bind (addSymbol_ren f _ _ _ _ _) fun x => rfl

theorem processSymbols_ren (o : Obj) (w : Writer) : both f (pairRen f) (processSymbols o w) = processSymbols (o.ren f) (w.ren f) :=
  both_loop f (g := pairRen f) (processSymbol_ren f) _ _

theorem processReloc_ren (o : Obj) (i : Nat) (w : Writer) (rel : InReloc) : both f (Writer.ren f) (processReloc o i w rel) = processReloc (o.ren f) i (w.ren f) rel := by
  unfold processReloc
  refine both_if rfl ?_
  refine both_bind (p := id) (both_id_unwrap _) fun s => ?_
  refine both_if rfl ?_
  simp only [id, show (o.ren f).sectionRelocations = o.sectionRelocations from rfl, show (o.ren f).symbols = o.symbols from rfl]
  cases AMap.get? o.sectionRelocations (i - 1) with
  | none => rfl
  | some sr =>
    simp only []
    cases AMap.get? o.symbols (symKey s) with
    | none => rfl
    | some r => exact addRelocation_ren f _ _ _ _ _

theorem processRelocations_ren (o : Obj) (w : Writer) : both f (Writer.ren f) (processRelocations o w) = processRelocations (o.ren f) (w.ren f) :=
  both_loop f (g := Writer.ren f) (F := fun w (e : Nat × List InReloc) => foldM' (processReloc o e.1) w e.2)
    (F' := fun w (e : Nat × List InReloc) => foldM' (processReloc (o.ren f) e.1) w e.2)
    (fun _ e => both_loop f (g := Writer.ren f) (fun w r => processReloc_ren f o e.1 w r) _ _) _ _

theorem toElfObject_ren {env env' : Env} (he : env'.parseElf = env.parseElf) (p : Path) (d : Bytes) :
    both f (Option.map (Obj.ren f)) (toElfObject env p d) = toElfObject env' (f p) d := by
  unfold toElfObject
  rw [he]
  refine both_bind (p := id) (both_orErr f _ _ rfl _) fun e => ?_
  simp only [both, id]
  split <;> rfl

theorem matchDynsym_ren (elf : ElfFile) (p : Path) (hp : (f p).file = p.file) (n : Name) (st : Writer × Bool) (s : Sym) :
    both f (fun e => (e.1.ren f, e.2)) (matchDynsym elf p n st s) = matchDynsym elf (f p) n (st.1.ren f, st.2) s := by
  unfold matchDynsym
  refine both_bind (p := id) (both_orErr f _ _ rfl _) fun i => ?_
  refine both_if ?_ rfl
  refine both_bind (addDynSymbol_ren f _ _ _ _) fun x => ?_
  rw [hp]
  exact both_bind (p := id) (both_id_unwrap _) fun _ => rfl

theorem searchLibEntry_ren (elf : ElfFile) (p : Path) (hp : (f p).file = p.file) (st : Writer × List SymbolRef) (r : SymbolRef) :
    both f (fun e => (e.1.ren f, e.2)) (searchLibEntry elf p st r) = searchLibEntry elf (f p) (st.1.ren f, st.2) r := by
  unfold searchLibEntry
  refine both_bind (p := id) (symbolName_ren f _ _) fun n => ?_
  cases n with
  | none => rfl
  | some n =>
    refine both_bind (both_loop f (g := fun e : Writer × Bool => (e.1.ren f, e.2)) (fun s a => matchDynsym_ren f elf p hp n s a) _ _) fun x => rfl

/-- the state of the loops over files with the paths renamed -/
def fstRen {α : Type} (st : Writer × α) : Writer × α := (st.1.ren f, st.2)

theorem searchLib_ren {env env' : Env} (he : env'.parseElf = env.parseElf) (order : Nat → List SymbolRef → List SymbolRef) (st : Writer × List SymbolRef) (p : Path)
    (i : Nat) (hr : env'.read (f p) = env.read p) (hp : (f p).file = p.file) :
    both f (fstRen f) (searchLib env order st (p, i)) = searchLib env' order (fstRen f st) (f p, i) := by
  obtain ⟨w, u⟩ := st
  unfold searchLib
  simp only [he, hr, fstRen]
  refine both_bind (p := id) (both_orErr f _ _ rfl _) fun d => ?_
  refine both_bind (p := id) (both_id_unwrap _) fun elf => ?_
  exact both_bind (both_loop f (g := fun e : Writer × List SymbolRef => (e.1.ren f, e.2)) (fun s a => searchLibEntry_ren f elf p hp s a) _ _) fun x => rfl

theorem zipIdx_ren (l : List Path) : (l.map f).zipIdx = l.zipIdx.map fun e => (f e.1, e.2) := by
  rw [List.zipIdx_map]; rfl

theorem findInLibs_ren {env env' : Env} {l : Linker} (m : FilesMoved f env env' l) (order : Nat → List SymbolRef → List SymbolRef) (u : List SymbolRef) (w : Writer) :
    both f (fstRen f) (findInLibs env l order u w) = findInLibs env' (l.ren f) order u (w.ren f) := by
  unfold findInLibs
  have e : (l.ren f).options.sharedLibs.map (·.1) = (l.options.sharedLibs.map (·.1)).map f := by simp [Linker.ren]
  rw [e, zipIdx_ren]
  refine both_foldM' (g := fstRen f) fun s a ha => ?_
  have ha : a.1 ∈ l.options.sharedLibs.map (·.1) := by
    have := List.mem_map_of_mem (f := Prod.fst) ha
    simpa using this
  exact searchLib_ren f m.elf order s a.1 a.2 (m.read _ (by simp only [List.mem_append]; exact .inr ha)) (m.names _ ha)

theorem searchArEntry_ren (ar : ArFile) (w : Writer) (st : List SymbolRef × List Bytes) (r : SymbolRef) :
    both f id (searchArEntry ar w st r) = searchArEntry ar (w.ren f) st r := by
  unfold searchArEntry
  refine both_bind (p := id) (symbolName_ren f _ _) fun n => ?_
  cases n with
  | none => rfl
  | some n =>
    show _ = (match ar.memberOfSymbol n with | none => _ | some m => _)
    simp only []
    cases ar.memberOfSymbol n <;> rfl

theorem linkMember_ren {env env' : Env} (he : env'.parseElf = env.parseElf) (p : Path) (ar : ArFile) (w : Writer) (m : Bytes) :
    both f (Writer.ren f) (linkMember env p ar w m) = linkMember env' (f p) ar (w.ren f) m := by
  unfold linkMember
  refine both_bind (p := id) (both_id_unwrap _) fun d => ?_
  refine both_bind (toElfObject_ren f he _ _) fun o => ?_
  refine both_bind (both_unwrap (Obj.ren f) _) fun o => ?_
  refine both_bind (processSections_ren f _ _) fun x => ?_
  refine both_bind (processSymbols_ren f _ _) fun y => ?_
  exact processRelocations_ren f _ _

theorem searchArchive_ren {env env' : Env} (he : env'.parseElf = env.parseElf) (ha : env'.parseAr = env.parseAr) (u : Nat → List SymbolRef → List SymbolRef)
    (o : Nat → List Bytes → List Bytes) (st : Writer × List SymbolRef) (p : Path) (i : Nat) (hr : env'.read (f p) = env.read p) :
    both f (fstRen f) (searchArchive env u o st (p, i)) = searchArchive env' u o (fstRen f st) (f p, i) := by
  obtain ⟨w, un⟩ := st
  unfold searchArchive
  simp only [ha, hr, fstRen]
  refine both_bind (p := id) (both_orErr f _ _ rfl _) fun d => ?_
  refine both_bind (p := id) (both_orErr f _ _ rfl _) fun ar => ?_
  refine both_bind (p := id) (both_loop f (g := id) (fun s a => searchArEntry_ren f ar w s a) _ _) fun x => ?_
  exact both_bind (both_loop f (g := Writer.ren f) (fun s a => linkMember_ren f he p ar s a) _ _) fun x => rfl

variable {env env' : Env} {l : Linker} {sched sched' : LinkSched}

theorem processArchives_ren (m : FilesMoved f env env' l) (so : SameOrders f l sched sched') (hv : sched.Valid) (r : Nat) (u : List SymbolRef) (w : Writer) :
    both f (fstRen f) (processArchives env l sched r u w) = processArchives env' (l.ren f) sched' r u (w.ren f) := by
  unfold processArchives
  rw [show (l.ren f).archives = l.archives.map f from rfl, so.archives, zipIdx_ren, so.undefAr, so.members]
  refine both_foldM' (g := fstRen f) fun s a ha => ?_
  have ha : a.1 ∈ l.archives := by
    have := List.mem_map_of_mem (f := Prod.fst) ha
    simp only [List.zipIdx_map_fst] at this
    exact (hv.archives _).mem_iff.1 this
  exact searchArchive_ren f m.elf m.ar _ _ s a.1 a.2 (m.read _ (by simp only [List.mem_append]; exact .inl (.inr ha)))

theorem resolveRound_ren (m : FilesMoved f env env' l) (so : SameOrders f l sched sched') (hv : sched.Valid) (r : Nat) (u : List SymbolRef) (w : Writer) :
    both f (fstRen f) (resolveRound env l sched r u w) = resolveRound env' (l.ren f) sched' r u (w.ren f) := by
  unfold resolveRound
  rw [so.undefLib]
  refine both_bind (findInLibs_ren f m _ _ _) fun x => ?_
  exact both_bind (processArchives_ren f m so hv _ _ _) fun x => rfl

theorem resolveLoop_ren (m : FilesMoved f env env' l) (so : SameOrders f l sched sched') (hv : sched.Valid) (fuel : Nat) : ∀ (r : Nat) (u : List SymbolRef) (w : Writer),
    (resolveLoop env l sched fuel r u w).map (both f (Writer.ren f)) = resolveLoop env' (l.ren f) sched' fuel r u (w.ren f) := by
  induction fuel with
  | zero => intros; rfl
  | succ n ih =>
    intro r u w
    simp only [resolveLoop]
    rw [← resolveRound_ren f m so hv]
    cases resolveRound env l sched r u w with
    | error e => rfl
    | ok x =>
      obtain ⟨w, k⟩ := x
      simp only [both, fstRen]
      split
      · rfl
      · rw [undefinedSymbols_ren, show sched'.symIter = sched.symIter from congrArg Sched.symIter so.toSched]
        exact ih _ _ _

theorem readAll_ren (ps : List Path) (h : ∀ p ∈ ps, env'.read (f p) = env.read p) :
    both f (List.map fun e => (f e.1, e.2)) (readAll env ps) = readAll env' (ps.map f) := by
  induction ps with
  | nil => rfl
  | cons p ps ih =>
    simp only [readAll, List.map_cons]
    rw [h p (.head _)]
    refine both_bind (p := id) (both_orErr f _ _ rfl _) fun d => ?_
    exact both_bind (ih fun q hq => h q (.tail _ hq)) fun x => rfl

theorem loadAll_ren (m : FilesMoved f env env' l) (w : Writer) : both f (Writer.ren f) (loadAll env l w) = loadAll env' (l.ren f) (w.ren f) := by
  unfold loadAll
  refine both_bind (readAll_ren f _ fun p hp => m.read p (by simp only [List.mem_append]; exact .inl (.inl hp))) fun ins => ?_
  refine both_bind (both_foldM' (g := fun st : List Obj × Writer => (st.1.map (Obj.ren f), st.2.ren f)) fun s a _ => ?_) fun x => ?_
  · unfold loadObjects
    refine both_bind (toElfObject_ren f m.elf _ _) fun o => ?_
    cases o with
    | none => rfl
    | some o =>
      refine both_bind (processSections_ren f _ _) fun x => ?_
      simp [both, pairRen]
  · refine both_foldM' (g := Writer.ren f) fun w o _ => ?_
    unfold loadSymbols
    exact both_bind (processSymbols_ren f _ _) fun y => processRelocations_ren f _ _

theorem undefinedNames_ren (w : Writer) : ∀ l, both f id (undefinedNames w l) = undefinedNames (w.ren f) l
  | [] => rfl
  | r :: l => by
    simp only [undefinedNames]
    exact both_bind (p := id) (symbolName_ren f _ _) fun n => both_bind (p := id) (undefinedNames_ren w l) fun _ => rfl

theorem finish_ren (so : SameOrders f l sched sched') (w : Writer) : both f id (finish l sched w) = finish (l.ren f) sched' (w.ren f) := by
  unfold finish
  rw [so.toSched]
  refine both_bind (computeSections_ren f _ _) fun a => ?_
  rw [undefinedSymbols_ren]
  refine both_if ?_ ?_
  · exact both_bind (p := id) (undefinedNames_ren f _ _) fun _ => rfl
  · exact both_bind (p := id) (writeToDisk_ren f _ _) fun _ => rfl

/-- the whole link -/
theorem link_ren (m : FilesMoved f env env' l) (so : SameOrders f l sched sched') (hv : sched.Valid) (fuel : Nat) :
    link env' (l.ren f) sched' fuel = (link env l sched fuel).map (both f id) := by
  unfold link
  have e : Writer.new (l.ren f).options = both f (Writer.ren f) (Writer.new l.options) := (Writer.new_ren f m.empty _).symm
  rw [e]
  cases Writer.new l.options with
  | error e => rfl
  | ok w =>
    simp only [both]
    rw [← loadAll_ren f m]
    cases loadAll env l w with
    | error e => rfl
    | ok w =>
      simp only [both]
      rw [undefinedSymbols_ren, show sched'.symIter = sched.symIter from congrArg Sched.symIter so.toSched, ← resolveLoop_ren f m so hv]
      cases resolveLoop env l sched fuel 0 (w.undefinedSymbols sched.symIter) w with
      | none => rfl
      | some x =>
        cases x with
        | error e => rfl
        | ok w => exact congrArg some (finish_ren f so w).symm

end Linker
end Dld
