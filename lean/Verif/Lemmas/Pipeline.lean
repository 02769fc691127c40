import Verif.Lemmas.HistFacts
import Verif.Lemmas.Layout
import Verif.Lemmas.Reloc
import Verif.Spec.Run
/-! # The stages of `compute_sections` -/
namespace Dld
namespace Writer

/-- the writer after each stage of `assign_section_addresses` up to the entries of `.dynamic` -/
structure Early (sched : Sched) (w : Writer) where
  scanned : Writer
  filled : Writer
  dynrel : Writer
  dynamic : Writer
  sorted : Writer
  entries : Writer
  hscan : w.scanRelocations = .ok scanned
  hfill : (expandDynsym sched (resizeGotPlt (resizeGot scanned))).fillHashes sched = .ok filled
  hdynrel : (filled.expandRest sched).genDynRels sched = .ok dynrel
  hdynamic : dynrel.sizeDynamic = .ok dynamic
  hsort : dynamic.sortSecs sched = .ok sorted
  hentries : sorted.genProgramHeaders.addDynEntries = .ok entries

/-- the stages of `compute_sections` before relocating -/
structure Mid (sched : Sched) (w : Writer) extends Early sched w where
  patched : Writer
  special : Writer
  hpatch : entries.patchPlt sched = .ok patched
  hspecial : patched.handleSpecialSymbols = .ok special

/-- the writer after each stage of `compute_sections` -/
structure Stages (sched : Sched) (w : Writer) extends Mid sched w where
  relocated : Writer
  tables : Writer
  final : Writer
  hreloc : special.handleRelocations = .ok relocated
  htables : relocated.computeTables = .ok tables
  hfinal : tables.finishHeader = .ok final

theorem computeSections_stages {sched : Sched} {w w' : Writer} (h : w.computeSections sched = .ok w') :
    ∃ s : Stages sched w, s.final = w' := by
  simp only [computeSections, assignSectionAddresses, bind_ok] at h
  obtain ⟨p, ⟨w1, h1, w2, h2, w3, h3, w4, h4, w5, h5, w6, h6, h7⟩, sp, h8, r, h9, t, h10, h11⟩ := h
  exact ⟨⟨⟨⟨w1, w2, w3, w4, w5, w6, h1, h2, h3, h4, h5, h6⟩, p, sp, h7, h8⟩, r, t, w', h9, h10, h11⟩, rfl⟩

/-- the stages put together again -/
theorem Stages.computeSections {sched : Sched} {w : Writer} (s : Stages sched w) : w.computeSections sched = .ok s.final := by
  simp only [Writer.computeSections, assignSectionAddresses, bind_ok]
  exact ⟨s.patched, ⟨_, s.hscan, _, s.hfill, _, s.hdynrel, _, s.hdynamic, _, s.hsort, _, s.hentries, s.hpatch⟩, _, s.hspecial, _, s.hreloc, _, s.htables, s.hfinal⟩

/-! ### Accumulating maps -/

theorem mapAccumM_forall {σ α β : Type} {f : σ → α → M (σ × β)} {R : α → β → Prop}
    (hf : ∀ s a s' b, f s a = .ok (s', b) → R a b) :
    ∀ {l : List α} {s s' : σ} {l' : List β}, mapAccumM f s l = .ok (s', l') →
      l'.length = l.length ∧ ∀ (i : Nat) (a : α) (b : β), l[i]? = some a → l'[i]? = some b → R a b := by
  intro l
  induction l with
  | nil => intro s s' l' h; cases h; simp
  | cons a l ih =>
    intro s s' l' h
    rw [mapAccumM_cons] at h
    obtain ⟨s1, b, s2, bs, h1, h2, h3⟩ := h
    cases h3
    obtain ⟨hl, hr⟩ := ih h2
    refine ⟨by simp [hl], ?_⟩
    intro i x y hx hy
    cases i with
    | zero => simp at hx hy; subst hx hy; exact hf _ _ _ _ h1
    | succ i => simp at hx hy; exact hr i x y hx hy

theorem mapAccumM_map_eq {σ α β γ : Type} {f : σ → α → M (σ × β)} {F : α → γ} {G : β → γ}
    (hf : ∀ s a s' b, f s a = .ok (s', b) → G b = F a) {l : List α} {s s' : σ} {l' : List β}
    (h : mapAccumM f s l = .ok (s', l')) : l'.map G = l.map F := by
  obtain ⟨hl, hr⟩ := mapAccumM_forall (R := fun a b => G b = F a) hf h
  apply List.ext_getElem?
  intro i
  simp only [List.getElem?_map]
  by_cases hi : i < l.length
  · rw [List.getElem?_eq_getElem hi, List.getElem?_eq_getElem (by omega)]
    simp only [Option.map_some, Option.some.injEq]
    exact hr i _ _ (List.getElem?_eq_getElem hi) (List.getElem?_eq_getElem (by omega))
  · rw [List.getElem?_eq_none (by omega), List.getElem?_eq_none (by omega)]; rfl

theorem modSec_map {γ : Type} {F : Section → γ} {w : Writer} {p : Nat} {f : Section → Section}
    (hf : ∀ s, s.ptr = p → F (f s) = F s) : (w.modSec p f).sections.map F = w.sections.map F := by
  simp only [modSec, List.map_map]
  apply List.map_congr_left
  intro s _
  simp only [Function.comp]
  split
  · next h => exact hf s h
  · rfl

theorem sec_ok {w : Writer} {p : Nat} {s : Section} (h : w.sec p = .ok s) : s ∈ w.sections ∧ s.ptr = p := by
  simp only [sec, unwrap_ok] at h
  exact ⟨List.mem_of_find?_eq_some h, by simpa using List.find?_some h⟩

/-! ### The scan keeps everything but relocation types -/

/-- what the scan keeps of a chunk -/
def chunkCore (c : Chunk) : Option Nat × Bytes × List SymbolRef := (c.address, c.data, c.symbols)

/-- a section without the relocations of its chunks -/
def bare (s : Section) : Nat × Nat × Option Nat × Kind × SectionHeader × List (Option Nat × Bytes × List SymbolRef) :=
  (s.ptr, s.index, s.link, s.kind, s.sh, s.chunks.map chunkCore)

theorem scanChunk_core {st st' : ScanState} {c c' : Chunk} (h : scanChunk st c = .ok (st', c')) :
    chunkCore c' = chunkCore c := by
  simp only [scanChunk, bind_ok, Prod.exists] at h
  obtain ⟨s1, rels, _, h2⟩ := h
  cases h2; rfl

theorem scanSection_core {st st' : ScanState} {s s' : Section} (h : scanSection st s = .ok (st', s')) :
    bare s' = bare s := by
  simp only [scanSection, bind_ok, Prod.exists] at h
  obtain ⟨s1, cs, h1, h2⟩ := h
  cases h2
  have := mapAccumM_map_eq (F := chunkCore) (G := chunkCore) (fun _ _ _ _ h => scanChunk_core h) h1
  simp [bare, this]

theorem scan_sections {w w' : Writer} (h : w.scanRelocations = .ok w') :
    w'.sections.map bare = w.sections.map bare ∧
    w' = { w with symtab := w'.symtab, plt := w'.plt, gotPlt := w'.gotPlt, gotLen := w'.gotLen, sections := w'.sections } := by
  simp only [scanRelocations, bind_ok, Prod.exists] at h
  obtain ⟨st, secs, h1, h2⟩ := h
  cases h2
  exact ⟨mapAccumM_map_eq (fun _ _ _ _ h => scanSection_core h) h1, rfl⟩

/-! ### What the stages before the sort add to each section -/

/-- a new size, chunks added and a new `sh_info` -/
structure Growth where
  size : Option Nat := none
  add : List Bytes := []
  info : Option Nat := none

/-- a section after growing -/
def Growth.apply (g : Growth) (s : Section) : Section :=
  { s with
    sh := { s.sh with sh_size := g.size.getD s.sh.sh_size, sh_info := g.info.getD s.sh.sh_info }
    chunks := s.chunks ++ g.add.map fun d => { data := d } }

/-- how the section `ptr` grows -/
def Early.growth {sched : Sched} {w : Writer} (st : Early sched w) (ptr : Nat) : Growth :=
  if ptr = P.shstr then { size := some st.scanned.shstr.totalLen }
  else if ptr = P.symstr then { size := some st.scanned.symstr.totalLen }
  else if ptr = P.dynstr then { size := some st.scanned.dynstr.totalLen }
  else if ptr = P.got then
    { size := some (8 * st.scanned.gotLen), add := [List.replicate (8 * st.scanned.gotLen) 0] }
  else if ptr = P.gotPlt then
    { size := some (8 * (st.scanned.gotPlt.length + 3)), add := [List.replicate (8 * (st.scanned.gotPlt.length + 3)) 0] }
  else if ptr = P.plt then { size := some st.scanned.plt.size, add := [st.scanned.plt.chunk] }
  else if ptr = P.sym then
    { size := some st.scanned.symtab.totalLen, add := [st.scanned.symtab.chunk sched.symIter]
      info := some (u32 st.scanned.symtab.numLocals) }
  else if ptr = P.dynsym then
    { size := some st.scanned.dynsym.totalLen, add := [st.scanned.dynsym.chunk sched.dynIter]
      info := some (u32 st.scanned.dynsym.numLocals) }
  else if ptr = P.copyRel then { size := some st.scanned.copyRel.size }
  else if ptr = P.hash then
    { size := some (serHashTable st.filled.hashTab).length, add := [serHashTable st.filled.hashTab] }
  else if ptr = P.gnuHash then
    { size := some (serGnuHashTable st.filled.gnuTab).length, add := [serGnuHashTable st.filled.gnuTab] }
  else if ptr = P.relaDyn then { size := some (st.dynrel.dynRels.length * sizeofRela) }
  else if ptr = P.relaPlt then { size := some (st.dynrel.pltRels.length * sizeofRela) }
  else if ptr = P.dynamic then
    { size := (st.dynamic.sections.find? fun s => s.ptr == P.dynamic).map (·.sh.sh_size) }
  else {}

theorem fillHashes_rest {sched : Sched} {w w' : Writer} (h : w.fillHashes sched = .ok w') :
    w' = { w with hashTab := w'.hashTab, gnuTab := w'.gnuTab } := by
  simp only [fillHashes, bind_ok] at h
  obtain ⟨a, _, b, _, h⟩ := h
  cases h; rfl

theorem genDynRels_sections {sched : Sched} {w w' : Writer} (h : w.genDynRels sched = .ok w') :
    w'.sections = (w.sections.map fun s => if s.ptr = P.relaDyn then setSize (w'.dynRels.length * sizeofRela) s else s).map
      fun s => if s.ptr = P.relaPlt then setSize (w'.pltRels.length * sizeofRela) s else s := by
  simp only [genDynRels, bind_ok] at h
  obtain ⟨st, _, h⟩ := h
  cases h; rfl

theorem genDynRels_rest {sched : Sched} {w w' : Writer} (h : w.genDynRels sched = .ok w') :
    w' = { w with symtab := w'.symtab, dynsym := w'.dynsym, copyRel := w'.copyRel, dynRels := w'.dynRels, pltRels := w'.pltRels, sections := w'.sections } := by
  simp only [genDynRels, bind_ok] at h
  obtain ⟨st, _, h⟩ := h
  cases h; rfl

theorem sizeDynamic_sections {w w' : Writer} (h : w.sizeDynamic = .ok w') :
    (∃ n, w'.sections = w.sections.map fun s => if s.ptr = P.dynamic then setSize n s else s) ∧
    w' = { w with sections := w'.sections } := by
  simp only [sizeDynamic, bind_ok] at h
  obtain ⟨n, _, h⟩ := h
  cases h; exact ⟨⟨_, rfl⟩, rfl⟩

theorem known_bare {hs : HashStyle} {ops : List Op} {s t : Section} (h : bare t = bare s)
    (hk : Known hs ops s) : Known hs ops t := by
  simp only [bare, Prod.mk.injEq] at h
  obtain ⟨h1, h2, h3, h4, h5, h6⟩ := h
  unfold Known Section.origin at *
  rw [h1, h3, h4, h5]; exact hk

theorem mem_of_map_eq {α β : Type} {F : α → β} {l l' : List α} (h : l.map F = l'.map F) {a : α} (ha : a ∈ l) :
    ∃ b ∈ l', F a = F b := by
  have : F a ∈ l'.map F := h ▸ List.mem_map_of_mem ha
  obtain ⟨b, hb, he⟩ := List.mem_map.1 this
  exact ⟨b, hb, he.symm⟩

theorem expand_ptr (sched : Sched) (w : Writer) (s : Section) : (expand sched w s).ptr = s.ptr := by
  unfold expand; cases s.kind <;> rfl

theorem setSize_ptr (n : Nat) (s : Section) : (setSize n s).ptr = s.ptr := rfl

theorem growZero_ptr (n : Nat) (s : Section) : (growZero n s).ptr = s.ptr := rfl

theorem map_ptr_ite {c : Section → Prop} [DecidablePred c] {f : Section → Section} {l : List Section}
    (h : ∀ s, (f s).ptr = s.ptr) : (l.map fun s => if c s then f s else s).map (·.ptr) = l.map (·.ptr) := by
  rw [List.map_map]
  apply List.map_congr_left
  intro s _
  simp only [Function.comp]
  split <;> simp [h]

theorem origins_both (hs : HashStyle) : ∀ o ∈ origins hs, o ∈ origins .both := by cases hs <;> decide

/-- the sixteen sections a new writer can have -/
theorem origins_cases {hs : HashStyle} {o : Nat × Option Nat × Kind × Nat × Nat × Nat} (h : o ∈ origins hs) :
    o = (P.null, none, .plain, 0, 0, 0) ∨
    o = (P.shstr, none, .shstr, SHT_STRTAB, 0, 0) ∨
    o = (P.symstr, none, .symstr, SHT_STRTAB, 0, 0) ∨
    o = (P.dynstr, none, .dynstr, SHT_STRTAB, 2, 0) ∨
    o = (P.interp, none, .plain, SHT_PROGBITS, 2, 0) ∨
    o = (P.got, none, .plain, SHT_PROGBITS, 3, 0) ∨
    o = (P.gotPlt, none, .plain, SHT_PROGBITS, 3, 0) ∨
    o = (P.plt, none, .plt, SHT_PROGBITS, 6, 0) ∨
    o = (P.sym, some P.symstr, .symtab, SHT_SYMTAB, 0, 24) ∨
    o = (P.dynsym, some P.dynstr, .dynsym, SHT_DYNSYM, 2, 24) ∨
    o = (P.dynamic, some P.dynstr, .plain, SHT_DYNAMIC, 3, 16) ∨
    o = (P.relaDyn, some P.dynsym, .plain, SHT_RELA, 2, 24) ∨
    o = (P.relaPlt, some P.dynsym, .plain, SHT_RELA, 2, 24) ∨
    o = (P.copyRel, none, .copyRel, SHT_NOBITS, 3, 0) ∨
    o = (P.hash, some P.dynsym, .hash, SHT_HASH, 2, 4) ∨
    o = (P.gnuHash, some P.dynsym, .gnuHash, SHT_GNU_HASH, 2, 4) := by
  have := origins_both hs o h
  simpa [origins, baseIdents, Writer.wantsHash, Writer.wantsGnuHash] using this

theorem Early.presort {sched : Sched} {w : Writer} (st : Early sched w) {hs : HashStyle} {ops : List Op}
    (hk : ∀ s ∈ w.sections, Known hs ops s) :
    st.dynamic.sections = st.scanned.sections.map fun s => (st.growth s.ptr).apply s := by
  have hk1 : ∀ s ∈ st.scanned.sections, Known hs ops s := by
    intro s h
    obtain ⟨t, ht, he⟩ := mem_of_map_eq (scan_sections st.hscan).1 h
    exact known_bare he (hk t ht)
  obtain ⟨⟨n, h1⟩, _⟩ := sizeDynamic_sections st.hdynamic
  have h2 := genDynRels_sections st.hdynrel
  have h3 := fillHashes_rest st.hfill
  have hn : ∀ s ∈ st.scanned.sections, s.ptr = P.dynamic →
      ((st.dynamic.sections.find? fun s => s.ptr == P.dynamic).map (·.sh.sh_size)) = some n := by
    intro s hsm hp
    have hmem : ∃ t ∈ st.dynamic.sections, t.ptr = P.dynamic := by
      have hpt : st.dynamic.sections.map (·.ptr) = st.scanned.sections.map (·.ptr) := by
        have h4 : st.filled.sections = (expandDynsym sched (resizeGotPlt (resizeGot st.scanned))).sections := by rw [h3]
        rw [h1, map_ptr_ite (setSize_ptr _), h2, map_ptr_ite (setSize_ptr _), map_ptr_ite (setSize_ptr _), expandRest,
          map_ptr_ite (expand_ptr sched _), h4, expandDynsym, modSec, map_ptr_ite (expand_ptr sched _), resizeGotPlt, modSec,
          map_ptr_ite (growZero_ptr _), resizeGot, modSec, map_ptr_ite (growZero_ptr _)]
      have : P.dynamic ∈ st.dynamic.sections.map (·.ptr) := by
        rw [hpt]; exact List.mem_map.2 ⟨s, hsm, hp⟩
      exact List.mem_map.1 this
    cases hf : st.dynamic.sections.find? fun s => s.ptr == P.dynamic with
    | none =>
      obtain ⟨t, ht, hp⟩ := hmem
      have := List.find?_eq_none.1 hf t ht
      simp [hp] at this
    | some t =>
      have h := List.mem_of_find?_eq_some hf
      have hp : t.ptr = P.dynamic := by simpa using List.find?_some hf
      rw [h1] at h
      obtain ⟨u, _, hu⟩ := List.mem_map.1 h
      split at hu
      · subst hu; simp [setSize]
      · subst hu; contradiction
  have h4 : st.filled.sections = (expandDynsym sched (resizeGotPlt (resizeGot st.scanned))).sections := by rw [h3]
  rw [h1, h2]
  simp only [expandRest, h4, expandDynsym, resizeGotPlt, resizeGot, modSec, List.map_map]
  apply List.map_congr_left
  intro s hsm
  have hns := hn s hsm
  simp only [Function.comp]
  have e1 : st.filled.shstr = st.scanned.shstr := by rw [h3]; rfl
  have e2 : st.filled.symstr = st.scanned.symstr := by rw [h3]; rfl
  have e3 : st.filled.dynstr = st.scanned.dynstr := by rw [h3]; rfl
  have e4 : st.filled.symtab = st.scanned.symtab := by rw [h3]; rfl
  have e5 : st.filled.dynsym = st.scanned.dynsym := by rw [h3]; rfl
  have e6 : st.filled.plt = st.scanned.plt := by rw [h3]; rfl
  have e7 : st.filled.copyRel = st.scanned.copyRel := by rw [h3]; rfl
  rcases hk1 s hsm with h | h
  · have h := origins_cases h
    obtain ⟨ptr, index, link, kind, sh, chunks⟩ := s
    obtain ⟨n1, n2, n3, n4, n5, n6, n7, n8, n9, n10⟩ := sh
    simp only [Section.origin, Prod.mk.injEq] at h hns
    rcases h with h | h | h | h | h | h | h | h | h | h | h | h | h | h | h | h
    all_goals
      obtain ⟨rfl, rfl, rfl, rfl, -, -⟩ := h
      simp [Early.growth, Growth.apply, expand, growZero, setSize, Section.addChunk, e1, e2, e3, e4, e5, e6, e7, hns,
        P.null, P.shstr, P.symstr, P.dynstr, P.interp, P.got, P.gotPlt, P.plt, P.sym, P.dynsym, P.dynamic, P.relaDyn, P.relaPlt, P.copyRel, P.hash, P.gnuHash,
        SHT_DYNSYM, SHT_PROGBITS, SHT_STRTAB, SHT_NOBITS, SHT_RELA, SHT_SYMTAB, SHT_DYNAMIC, SHT_HASH, SHT_GNU_HASH]
    have := hns rfl
    simp only [P.dynamic] at this
    rw [this]; rfl
  · obtain ⟨h1, h2, _⟩ := h
    obtain ⟨ptr, index, link, kind, sh, chunks⟩ := s
    simp only [P.first] at h1 h2
    subst h2
    have hne : ∀ k, k < 16 → ptr ≠ k := fun k hk => by omega
    simp [Early.growth, Growth.apply, expand, hne,
           P.null, P.shstr, P.symstr, P.dynstr, P.interp, P.got, P.gotPlt, P.plt, P.sym, P.dynsym, P.dynamic, P.relaDyn, P.relaPlt, P.copyRel, P.hash, P.gnuHash]

/-! ### Sorting and placing -/

/-- what never changes about a section -/
def tag (s : Section) : Nat × Option Nat × Kind × Nat × Nat × Nat × Nat × Nat :=
  (s.ptr, s.link, s.kind, s.sh.sh_name, s.sh.sh_type, s.sh.sh_flags, s.sh.sh_addralign, s.sh.sh_entsize)

theorem map_of_map {α β γ : Type} {F : α → β} {G : α → γ} {l l' : List α} (h : l.map F = l'.map F) (g : β → γ)
    (hg : ∀ a, G a = g (F a)) : l.map G = l'.map G := by
  have : ∀ m : List α, m.map G = (m.map F).map g := fun m => by
    rw [List.map_map]; exact List.map_congr_left fun a _ => hg a
  rw [this, this, h]

theorem Early.scanned_tag {sched : Sched} {w : Writer} (st : Early sched w) :
    st.scanned.sections.map tag = w.sections.map tag :=
  map_of_map (scan_sections st.hscan).1
    (fun b => (b.1, b.2.2.1, b.2.2.2.1, b.2.2.2.2.1.sh_name, b.2.2.2.2.1.sh_type, b.2.2.2.2.1.sh_flags,
      b.2.2.2.2.1.sh_addralign, b.2.2.2.2.1.sh_entsize)) (fun _ => rfl)

theorem Early.dynamic_tag {sched : Sched} {w : Writer} (st : Early sched w) {hs : HashStyle} {ops : List Op}
    (hk : ∀ s ∈ w.sections, Known hs ops s) : st.dynamic.sections.map tag = w.sections.map tag := by
  rw [st.presort hk, List.map_map, ← st.scanned_tag]
  apply List.map_congr_left
  intro s _; rfl

theorem sortSecs_ok {sched : Sched} {w w' : Writer} (h : w.sortSecs sched = .ok w') :
    ∃ null rest, w.sections = null :: rest ∧ w' = { w with sections := w'.sections } ∧
      w'.sections = (null :: stableSort sectionLe (sched.secOrder rest)).mapIdx fun i s => { s with index := i } := by
  simp only [sortSecs, bind_ok] at h
  obtain ⟨secs, h1, h2⟩ := h
  cases h2
  cases hw : w.sections with
  | nil => rw [hw] at h1; cases h1
  | cons null rest =>
    rw [hw] at h1
    simp only [sortSections, Except.ok.injEq] at h1
    exact ⟨null, rest, rfl, rfl, h1.symm⟩

theorem mapIdx_map_tag {γ : Type} {F : Section → γ} (hF : ∀ s i, F { s with index := i } = F s) (l : List Section) :
    (l.mapIdx fun i s => { s with index := i }).map F = l.map F := by
  apply List.ext_getElem?
  intro i
  simp only [List.getElem?_map, List.getElem?_mapIdx, Option.map_map]
  congr 1
  funext s
  exact hF s i

theorem sortSecs_perm {sched : Sched} (hv : sched.Valid) {w w' : Writer} (h : w.sortSecs sched = .ok w')
    {γ : Type} {F : Section → γ} (hF : ∀ s i, F { s with index := i } = F s) :
    (w'.sections.take 1).map F = (w.sections.take 1).map F ∧
    ((w'.sections.drop 1).map F).Perm ((w.sections.drop 1).map F) := by
  obtain ⟨null, rest, h1, _, h3⟩ := sortSecs_ok h
  have := mapIdx_map_tag hF (null :: stableSort sectionLe (sched.secOrder rest))
  rw [← h3] at this
  constructor
  · rw [List.map_take, this, h1]; simp
  · rw [List.map_drop, this, h1]
    simp only [List.map_cons, List.drop_succ_cons, List.drop_zero]
    exact ((stableSort_perm _ _).trans (hv.secOrder rest)).map F

theorem sortSecs_index {sched : Sched} {w w' : Writer} (h : w.sortSecs sched = .ok w') (i : Nat) (s : Section)
    (hs : w'.sections[i]? = some s) : s.index = i := by
  obtain ⟨null, rest, _, _, h3⟩ := sortSecs_ok h
  rw [h3, List.getElem?_mapIdx, Option.map_eq_some_iff] at hs
  obtain ⟨t, _, rfl⟩ := hs
  rfl

theorem sortSecs_sorted {sched : Sched} {w w' : Writer} (h : w.sortSecs sched = .ok w') :
    ((w'.sections.drop 1).map (·.sh.sh_flags)).Pairwise flagsLe := by
  obtain ⟨null, rest, h1, _, h3⟩ := sortSecs_ok h
  have := mapIdx_map_tag (F := fun s => s.sh.sh_flags) (fun _ _ => rfl) (null :: stableSort sectionLe (sched.secOrder rest))
  rw [← h3] at this
  rw [List.map_drop, this]
  simp only [List.map_cons, List.drop_succ_cons, List.drop_zero]
  rw [List.pairwise_map]
  exact (stableSort_pairwise sectionLe_total sectionLe_trans _).imp fun h => sectionLe_flags h

theorem _root_.Dld.Known.flags_ne_one {hs : HashStyle} {ops : List Op} {s : Section} (hk : Known hs ops s) (hf : FlagsOk ops) :
    s.sh.sh_flags ≠ 1 := by
  rcases hk with h | ⟨_, _, _, n, sh, d, r, h1, _, _, h2, _⟩
  · have h := origins_cases h
    simp only [Section.origin, Prod.mk.injEq] at h
    omega
  · rw [h2]; exact hf n sh d r h1

theorem tag_ptr {l l' : List Section} (h : l.map tag = l'.map tag) : l.map (·.ptr) = l'.map (·.ptr) :=
  map_of_map h (fun t => t.1) (fun _ => rfl)

/-- the sections of the writer as a history leaves them -/
structure SecFacts (hs : HashStyle) (ops : List Op) (w : Writer) : Prop where
  known : ∀ s ∈ w.sections, Known hs ops s
  nodup : (w.sections.map (·.ptr)).Nodup
  head : ∃ null rest, w.sections = null :: rest ∧ null.ptr = P.null
  has : ∀ p ∈ (baseIdents hs).map (·.1), ∃ s ∈ w.sections, s.ptr = p

theorem _root_.Dld.Hist.secFacts {opts : Options} {ops : List Op} {w : Writer} (h : Hist opts ops w) :
    SecFacts opts.hashStyle ops w := by
  obtain ⟨w0, pn, h0, hI⟩ := h.winv
  have hp := hI.ptrs h0
  refine ⟨hI.known h0, hI.ptrs_nodup h0, ?_, ?_⟩
  · cases hw : w.sections with
    | nil => rw [hw] at hp; cases hh : opts.hashStyle <;> rw [hh] at hp <;> simp [baseIdents] at hp
    | cons null rest =>
      refine ⟨null, rest, rfl, ?_⟩
      rw [hw] at hp
      have := congrArg List.head? hp
      cases hh : opts.hashStyle <;> rw [hh] at this <;> simpa [baseIdents] using this
  · intro p hpm
    have : p ∈ w.sections.map (·.ptr) := by rw [hp]; exact List.mem_append_left _ hpm
    exact List.mem_map.1 this

theorem base_has (hs : HashStyle) : ∀ p ∈ [P.null, P.shstr, P.symstr, P.dynstr, P.interp, P.got, P.gotPlt, P.plt, P.sym,
    P.dynsym, P.dynamic, P.relaDyn, P.relaPlt, P.copyRel], p ∈ (baseIdents hs).map (·.1) := by cases hs <;> decide

theorem SecFacts.rest_has {hs : HashStyle} {ops : List Op} {w : Writer} (h : SecFacts hs ops w) {p : Nat}
    (hp : p ∈ (baseIdents hs).map (·.1)) (hne : p ≠ P.null) : ∃ s ∈ w.sections.drop 1, s.ptr = p := by
  obtain ⟨s, hs, hsp⟩ := h.has p hp
  obtain ⟨null, rest, hw, hn⟩ := h.head
  rw [hw] at hs ⊢
  rcases List.mem_cons.1 hs with rfl | hs
  · exact absurd (hsp.symm.trans hn) hne
  · exact ⟨s, by simpa using hs, hsp⟩

/-- the flags of a section of the writer's own -/
theorem _root_.Dld.Known.origin_of_ptr {hs : HashStyle} {ops : List Op} {s : Section} (hk : Known hs ops s) (hp : s.ptr < P.first) :
    s.origin ∈ origins hs := by
  rcases hk with h | ⟨h, _⟩
  · exact h
  · omega

theorem Early.ready {sched : Sched} (hv : sched.Valid) {w : Writer} (st : Early sched w) {hs : HashStyle} {ops : List Op}
    (hsf : SecFacts hs ops w) (hf : FlagsOk ops) : Ready st.sorted.sections := by
  have htag : ((st.sorted.sections.drop 1).map tag).Perm ((w.sections.drop 1).map tag) := by
    have := (sortSecs_perm hv st.hsort (F := tag) (fun _ _ => rfl)).2
    rw [List.map_drop (l := st.dynamic.sections), st.dynamic_tag hsf.known, ← List.map_drop] at this
    exact this
  have hmem : ∀ s ∈ st.sorted.sections.drop 1, ∃ t ∈ w.sections.drop 1, tag s = tag t := by
    intro s hs
    have : tag s ∈ (w.sections.drop 1).map tag := htag.mem_iff.1 (List.mem_map_of_mem hs)
    obtain ⟨t, ht, he⟩ := List.mem_map.1 this
    exact ⟨t, ht, he.symm⟩
  have hmem' : ∀ t ∈ w.sections.drop 1, ∃ s ∈ st.sorted.sections.drop 1, tag s = tag t := by
    intro t ht
    have : tag t ∈ (st.sorted.sections.drop 1).map tag := htag.mem_iff.2 (List.mem_map_of_mem ht)
    obtain ⟨s, hs, he⟩ := List.mem_map.1 this
    exact ⟨s, hs, he⟩
  have hsorted := sortSecs_sorted st.hsort
  obtain ⟨i, hi, hip⟩ := hsf.rest_has (base_has hs P.interp (by simp)) (by decide)
  obtain ⟨z, hz, hzp⟩ := hsf.rest_has (base_has hs P.shstr (by simp)) (by decide)
  have hif : i.sh.sh_flags = 2 := by
    have := origins_cases ((hsf.known i (List.mem_of_mem_drop hi)).origin_of_ptr (by rw [hip]; decide))
    simp only [Section.origin, Prod.mk.injEq, hip, P.null, P.shstr, P.symstr, P.dynstr, P.interp, P.got, P.gotPlt, P.plt, P.sym, P.dynsym, P.dynamic, P.relaDyn, P.relaPlt, P.copyRel, P.hash, P.gnuHash] at this
    omega
  have hzf : z.sh.sh_flags = 0 := by
    have := origins_cases ((hsf.known z (List.mem_of_mem_drop hz)).origin_of_ptr (by rw [hzp]; decide))
    simp only [Section.origin, Prod.mk.injEq, hzp, P.null, P.shstr, P.symstr, P.dynstr, P.interp, P.got, P.gotPlt, P.plt, P.sym, P.dynsym, P.dynamic, P.relaDyn, P.relaPlt, P.copyRel, P.hash, P.gnuHash] at this
    omega
  obtain ⟨i', hi', hie⟩ := hmem' i hi
  obtain ⟨z', hz', hze⟩ := hmem' z hz
  have hif' : i'.sh.sh_flags = 2 := by simp only [tag, Prod.mk.injEq] at hie; omega
  have hzf' : z'.sh.sh_flags = 0 := by simp only [tag, Prod.mk.injEq] at hze; omega
  rw [List.pairwise_map] at hsorted
  refine ⟨by rw [List.pairwise_map]; exact hsorted, ?_, ?_, List.ne_nil_of_mem hi'⟩
  · intro s hs
    have hle : flagsLe s.sh.sh_flags i'.sh.sh_flags := by
      cases hl : st.sorted.sections.drop 1 with
      | nil => rw [hl] at hi'; cases hi'
      | cons a l =>
        rw [hl] at hi' hs hsorted
        simp only [List.head?_cons, Option.mem_def, Option.some.injEq] at hs
        subst hs
        rcases List.mem_cons.1 hi' with rfl | h
        · exact flagsLe_refl _
        · exact (List.pairwise_cons.1 hsorted).1 _ h
    obtain ⟨t, ht, he⟩ := hmem s (List.mem_of_mem_head? hs)
    have h1 := (hsf.known t (List.mem_of_mem_drop ht)).flags_ne_one hf
    have h2 : s.sh.sh_flags = t.sh.sh_flags := by simp only [tag, Prod.mk.injEq] at he; omega
    have h3 : s.sh.sh_flags = 2 := by unfold flagsLe at hle; omega
    unfold Section.alloc; rw [h3]; decide
  · intro s hs
    have hle : flagsLe z'.sh.sh_flags s.sh.sh_flags := by
      rcases List.eq_nil_or_concat (st.sorted.sections.drop 1) with hl | ⟨l, a, hl⟩
      · rw [hl] at hz'; cases hz'
      · rw [hl] at hz' hs hsorted
        simp only [List.concat_eq_append, List.getLast?_append, List.getLast?_singleton, Option.some_or, Option.mem_def, Option.some.injEq] at hs
        subst hs
        rw [List.concat_eq_append] at hz' hsorted
        rcases List.mem_append.1 hz' with h | h
        · exact (List.pairwise_append.1 hsorted).2.2 _ h _ (by simp)
        · simp at h; subst h; exact flagsLe_refl _
    have h3 : s.sh.sh_flags = 0 := by unfold flagsLe at hle; omega
    unfold Section.alloc; rw [h3]; decide

/-! ### The stages after placing -/

/-- a section without its chunks -/
def post (s : Section) : Nat × Nat × Option Nat × Kind × SectionHeader := (s.ptr, s.index, s.link, s.kind, s.sh)

/-- the lengths of the chunks -/
def lens (s : Section) : List Nat := s.chunks.map (·.data.length)

theorem addDynEntries_rest {w w' : Writer} (h : w.addDynEntries = .ok w') :
    w' = { w with dynEntries := w'.dynEntries } := by
  simp only [addDynEntries, bind_ok] at h
  obtain ⟨_, _, h⟩ := h
  cases h; rfl

theorem patchPltEntry_length {t : SymbolTable} {a b : Nat} {x y : Bytes × Bytes} {e : SymbolRef × Nat}
    (h : patchPltEntry t a b x e = .ok y) : y.1.length = x.1.length ∧ y.2.length = x.2.length := by
  simp only [patchPltEntry, bind_ok] at h
  obtain ⟨_, _, _, _, _, _, g, hg, _, _, p1, hp1, _, _, p2, hp2, _, _, p3, hp3, h⟩ := h
  cases h
  exact ⟨by rw [length_writeAt hp3, length_writeAt hp2, length_writeAt hp1], length_writeAt hg⟩

theorem patchPltHeader_length {a b : Nat} {x y : Bytes} (h : patchPltHeader a b x = .ok y) : y.length = x.length := by
  simp only [patchPltHeader, bind_ok] at h
  obtain ⟨_, _, p, hp, _, _, h⟩ := h
  rw [length_writeAt h, length_writeAt hp]

theorem patchPlt_ok {sched : Sched} {w w' : Writer} (h : w.patchPlt sched = .ok w') :
    ∃ p g pc gc pd gd, w.sec P.plt = .ok p ∧ w.sec P.gotPlt = .ok g ∧ p.chunks[0]? = some pc ∧ g.chunks[0]? = some gc ∧
      pd.length = pc.data.length ∧ gd.length = gc.data.length ∧
      w' = (w.modSec P.plt (setChunk0 pd)).modSec P.gotPlt (setChunk0 gd) := by
  simp only [patchPlt, bind_ok, unwrap_ok] at h
  obtain ⟨p, hp, g, hg, pc, hpc, gc, hgc, d, hd, e, he, h⟩ := h
  obtain ⟨pd, gd⟩ := e
  cases h
  refine ⟨p, g, pc, gc, pd, gd, hp, hg, hpc, hgc, ?_⟩
  have := foldM'_invariant (fun x : Bytes × Bytes => x.1.length = d.length ∧ x.2.length = gc.data.length) he ⟨rfl, rfl⟩
    (fun s a s' _ hs h' => by
      have := patchPltEntry_length h'
      exact ⟨this.1.trans hs.1, this.2.trans hs.2⟩)
  exact ⟨this.1.trans (patchPltHeader_length hd), this.2, rfl⟩

theorem patchPlt_post {sched : Sched} {w w' : Writer} (h : w.patchPlt sched = .ok w') :
    w'.sections.map post = w.sections.map post ∧ w' = { w with sections := w'.sections } := by
  obtain ⟨p, g, pc, gc, pd, gd, _, _, _, _, _, _, rfl⟩ := patchPlt_ok h
  exact ⟨(modSec_map (F := post) (f := setChunk0 gd) (fun _ _ => rfl)).trans (modSec_map (F := post) (f := setChunk0 pd) (fun _ _ => rfl)), rfl⟩

theorem find_nodup {l : List Section} {p : Nat} {s t : Section} (hn : (l.map (·.ptr)).Nodup)
    (hs : s ∈ l) (ht : t ∈ l) (h1 : s.ptr = p) (h2 : t.ptr = p) : s = t := by
  induction l with
  | nil => cases hs
  | cons a l ih =>
    simp only [List.map_cons, List.nodup_cons] at hn
    obtain ⟨hn1, hn2⟩ := hn
    rcases List.mem_cons.1 hs with e | hs <;> rcases List.mem_cons.1 ht with e' | ht
    · rw [e, e']
    · exact absurd (List.mem_map.2 ⟨t, ht, by rw [h2, ← h1, e]⟩) hn1
    · exact absurd (List.mem_map.2 ⟨s, hs, by rw [h1, ← h2, e']⟩) hn1
    · exact ih hn2 hs ht

theorem modify_lens {cs : List Chunk} {c : Chunk} {d : Bytes} (hc : cs[0]? = some c) (hd : d.length = c.data.length) :
    (cs.modify 0 fun c => { c with data := d }).map (·.data.length) = cs.map (·.data.length) := by
  cases cs with
  | nil => cases hc
  | cons a cs => simp at hc; subst hc; simp [hd]

theorem patchPlt_lens {sched : Sched} {w w' : Writer} (h : w.patchPlt sched = .ok w')
    (hn : (w.sections.map (·.ptr)).Nodup) : w'.sections.map lens = w.sections.map lens := by
  obtain ⟨p, g, pc, gc, pd, gd, hp, hg, hpc, hgc, hpd, hgd, rfl⟩ := patchPlt_ok h
  obtain ⟨hp1, hp2⟩ := sec_ok hp
  obtain ⟨hg1, hg2⟩ := sec_ok hg
  simp only [modSec, List.map_map]
  apply List.map_congr_left
  intro s hs
  simp only [Function.comp]
  by_cases h1 : s.ptr = P.plt
  · have : s = p := find_nodup hn hs hp1 h1 hp2
    subst this
    have hne : (setChunk0 pd s).ptr ≠ P.gotPlt := by
      simp only [setChunk0, h1]; decide
    rw [if_pos h1, if_neg hne]
    exact modify_lens hpc hpd
  · rw [if_neg h1]
    by_cases h2 : s.ptr = P.gotPlt
    · have : s = g := find_nodup hn hs hg1 h2 hg2
      subst this
      rw [if_pos h2]
      exact modify_lens hgc hgd
    · rw [if_neg h2]

theorem modifyChunk_ok {s s' : Section} {i : Nat} {f : Chunk → Chunk} (h : s.modifyChunk i f = .ok s') :
    i < s.chunks.length ∧ s' = { s with chunks := s.chunks.modify i f } := by
  unfold Section.modifyChunk at h
  split at h
  · next hi => cases h; exact ⟨hi, rfl⟩
  · cases h

/-- the data of the chunks -/
def datas (s : Section) : List Bytes := s.chunks.map (·.data)

theorem modify_datas {cs : List Chunk} {i : Nat} {f : Chunk → Chunk} (hf : ∀ c, (f c).data = c.data) :
    (cs.modify i f).map (·.data) = cs.map (·.data) := by
  apply List.ext_getElem?
  intro j
  simp only [List.getElem?_map, List.getElem?_modify]
  cases hc : cs[j]? with
  | none => rfl
  | some c => by_cases hj : i = j <;> simp [hj, hf]

theorem modify_addr {cs : List Chunk} {i : Nat} {f : Chunk → Chunk} (hf : ∀ c, (f c).address = c.address) :
    (cs.modify i f).map (·.address) = cs.map (·.address) := by
  apply List.ext_getElem?
  intro j
  simp only [List.getElem?_map, List.getElem?_modify]
  cases hc : cs[j]? with
  | none => rfl
  | some c => by_cases hj : i = j <;> simp [hj, hf]

theorem addSymbol_data (c : Chunk) (r : SymbolRef) : (c.addSymbol r).data = c.data := by
  unfold Chunk.addSymbol; split <;> rfl

theorem addSymbol_addr (c : Chunk) (r : SymbolRef) : (c.addSymbol r).address = c.address := by
  unfold Chunk.addSymbol; split <;> rfl

theorem boundSymbols_post {symstr : StringTable} {a b : Name} {t t' : SymbolTable} {s s' : Section}
    (h : boundSymbols symstr a b t s = .ok (t', s')) : post s' = post s ∧ datas s' = datas s := by
  have tail : ∀ s1 : Section, post s1 = post s ∧ datas s1 = datas s →
      (match symstr.get b with
        | some e => do
          let _ ← unwrap (t.get (.named (u32 e.offset)))
          let t := t.modify (.named (u32 e.offset)) fun x => { x with sym := { x.sym with st_value := s1.sizeOnDisk } }
          let s ← if s1.chunks.length = 0 then .error .panic
            else s1.modifyChunk (s1.chunks.length - 1) (·.addSymbol (.named (u32 e.offset)))
          .ok (t, s)
        | none => .ok (t, s1)) = (.ok (t', s') : M (SymbolTable × Section)) → post s' = post s ∧ datas s' = datas s := by
    intro s1 e1 h2
    cases hb : symstr.get b with
    | none => rw [hb] at h2; cases h2; exact e1
    | some e =>
      rw [hb] at h2
      simp only [bind_ok] at h2
      obtain ⟨_, _, h2⟩ := h2
      by_cases hz : s1.chunks.length = 0
      · simp only [if_pos hz] at h2; cases h2
      · simp only [if_neg hz] at h2
        rw [bind_ok] at h2
        obtain ⟨s2, h3, h4⟩ := h2
        cases h4
        obtain ⟨_, rfl⟩ := modifyChunk_ok h3
        exact ⟨e1.1, (modify_datas fun c => addSymbol_data c _).trans e1.2⟩
  unfold boundSymbols at h
  cases ha : symstr.get a with
  | none =>
    rw [ha] at h
    exact tail s ⟨rfl, rfl⟩ h
  | some e =>
    rw [ha] at h
    simp only [] at h
    rw [bind_ok] at h
    obtain ⟨s1, h1, h2⟩ := h
    obtain ⟨_, rfl⟩ := modifyChunk_ok h1
    have hd : datas { s with chunks := s.chunks.modify 0 (·.addSymbol (.named (u32 e.offset))) } = datas s :=
      modify_datas fun c => addSymbol_data c _
    exact tail { s with chunks := s.chunks.modify 0 (·.addSymbol (.named (u32 e.offset))) } ⟨rfl, hd⟩ h2

theorem specialStep_post {a b : StringTable} {skip : List Nat} {t t' : SymbolTable} {s s' : Section}
    (h : specialStep a b skip t s = .ok (t', s')) : post s' = post s ∧ datas s' = datas s := by
  unfold specialStep at h
  split at h
  · cases h; exact ⟨rfl, rfl⟩
  · split at h
    · exact boundSymbols_post h
    · split at h
      · exact boundSymbols_post h
      · cases h; exact ⟨rfl, rfl⟩

theorem special_post {w w' : Writer} (h : w.handleSpecialSymbols = .ok w') :
    w'.sections.map post = w.sections.map post ∧ w'.sections.map datas = w.sections.map datas ∧
    w' = { w with symtab := w'.symtab, dynsym := w'.dynsym, sections := w'.sections } := by
  simp only [handleSpecialSymbols, bind_ok, Prod.exists] at h
  obtain ⟨g, _, a, _, b, _, t, secs, h1, c, _, h2⟩ := h
  cases h2
  exact ⟨mapAccumM_map_eq (F := post) (G := post) (fun _ _ _ _ h => (specialStep_post h).1) h1,
    mapAccumM_map_eq (F := datas) (G := datas) (fun _ _ _ _ h => (specialStep_post h).2) h1, rfl⟩

/-! ### Relocations keep lengths -/

theorem applyRelocation_length {ca : Nat} {data out : Bytes} {rel : Rela} {symbol : Symbol} {dt : SymbolTable} {got plt : Nat}
    (h : applyRelocation ca data rel symbol dt got plt = .ok out) : out.length = data.length := by
  rw [applyRelocation_patch, bind_ok] at h
  obtain ⟨p, _, h⟩ := h
  exact length_writeAt h

theorem applyRelocations_ok {c c' : Chunk} {got plt : Nat} {t dt : SymbolTable} (h : c.applyRelocations got plt t dt = .ok c') :
    c' = { c with data := c'.data } ∧ c'.data.length = c.data.length := by
  simp only [Chunk.applyRelocations, bind_ok] at h
  obtain ⟨d, hd, h⟩ := h
  cases h
  refine ⟨rfl, ?_⟩
  refine foldM'_invariant (fun x : Bytes => x.length = c.data.length) hd rfl ?_
  intro s a s' _ hs h
  simp only [bind_ok] at h
  obtain ⟨_, _, _, _, h⟩ := h
  exact (applyRelocation_length h).trans hs

/-- the step of the relocation loop on one section -/
def relocSection (names : List Nat) (got plt : Nat) (t dt : SymbolTable) (s : Section) : M Section :=
  if relocatable names s then do
    let (_, chunks) ← mapAccumM (fun (_ : Unit) c => do
      let c ← Chunk.applyRelocations c got plt t dt
      .ok ((), c)) () s.chunks
    .ok { s with chunks }
  else .ok s

theorem relocSection_post {names : List Nat} {got plt : Nat} {t dt : SymbolTable} {s s' : Section}
    (h : relocSection names got plt t dt s = .ok s') : post s' = post s ∧ lens s' = lens s := by
  unfold relocSection at h
  split at h
  · simp only [bind_ok, Prod.exists] at h
    obtain ⟨_, cs, h1, h2⟩ := h
    cases h2
    refine ⟨rfl, ?_⟩
    refine mapAccumM_map_eq (F := fun c : Chunk => c.data.length) (G := fun c : Chunk => c.data.length) ?_ h1
    intro _ a _ b h
    rw [bind_ok] at h
    obtain ⟨c', h1, h2⟩ := h
    cases h2
    exact (applyRelocations_ok h1).2
  · cases h; exact ⟨rfl, rfl⟩

theorem handleRelocations_ok {w w' : Writer} (h : w.handleRelocations = .ok w') :
    ∃ g p y d rest, w.sec P.got = .ok g ∧ w.sec P.plt = .ok p ∧ w.sec P.sym = .ok y ∧ w.sec P.dynsym = .ok d ∧
      w'.symtab = ((w.sections.drop 1).filter (relocatable [y.sh.sh_name, d.sh.sh_name])).foldl
        (fun t s => s.patchSymbolValues t) w.symtab ∧
      mapAccumM (fun (_ : Unit) s => do
        let s ← relocSection [y.sh.sh_name, d.sh.sh_name] g.sh.sh_addr p.sh.sh_addr w'.symtab w.dynsym s
        .ok ((), s)) () (w.sections.drop 1) = .ok ((), rest) ∧
      w' = { w with symtab := w'.symtab, sections := w.sections.take 1 ++ rest } := by
  simp only [handleRelocations, bind_ok, Prod.exists] at h
  obtain ⟨g, hg, p, hp, y, hy, d, hd, _, rest, h1, h2⟩ := h
  cases h2
  refine ⟨g, p, y, d, rest, hg, hp, hy, hd, rfl, ?_, rfl⟩
  rw [← h1]
  congr 1
  funext _ s
  unfold relocSection
  split
  · simp only [bind_assoc']; rfl
  · rfl

theorem handleRelocations_post {w w' : Writer} (h : w.handleRelocations = .ok w') :
    w'.sections.map post = w.sections.map post ∧ w'.sections.map lens = w.sections.map lens ∧
    w' = { w with symtab := w'.symtab, sections := w'.sections } := by
  obtain ⟨g, p, y, d, rest, _, _, _, _, _, h1, h2⟩ := handleRelocations_ok h
  have hs : w'.sections = w.sections.take 1 ++ rest := by rw [h2]
  refine ⟨?_, ?_, by rw [h2]⟩
  · have := mapAccumM_map_eq (F := post) (G := post) (fun _ a _ b h => by
      simp only [bind_ok] at h
      obtain ⟨_, h1, h2⟩ := h
      cases h2
      exact (relocSection_post h1).1) h1
    rw [hs, List.map_append, this, ← List.map_append, List.take_append_drop]
  · have := mapAccumM_map_eq (F := lens) (G := lens) (fun _ a _ b h => by
      simp only [bind_ok] at h
      obtain ⟨_, h1, h2⟩ := h
      cases h2
      exact (relocSection_post h1).2) h1
    rw [hs, List.map_append, this, ← List.map_append, List.take_append_drop]

/-! ### The tables -/

/-- the bytes `compute_tables` appends to the section `ptr` -/
def tableData (w w' : Writer) (ptr : Nat) : List Bytes :=
  if ptr = P.shstr then [w.shstr.chunk]
  else if ptr = P.symstr then [w.symstr.chunk]
  else if ptr = P.dynstr then [w.dynstr.chunk]
  else if ptr = P.dynamic then [serVec serDyn w.dynEntries]
  else if ptr = P.relaDyn then [serVec serRela w'.dynRels]
  else if ptr = P.relaPlt then [serVec serRela w'.pltRels]
  else []

/-- a section with chunks appended -/
def addChunks (ds : List Bytes) (s : Section) : Section := { s with chunks := s.chunks ++ ds.map fun d => { data := d } }

theorem computeTables_ok {w w' : Writer} (h : w.computeTables = .ok w') :
    (∃ g gp cr, w.sec P.got = .ok g ∧ w.sec P.gotPlt = .ok gp ∧ w.sec P.copyRel = .ok cr ∧
      w'.dynRels = w.dynRels.map (rebaseRela g.sh.sh_addr gp.sh.sh_addr cr.sh.sh_addr) ∧
      w'.pltRels = w.pltRels.map (rebaseRela g.sh.sh_addr gp.sh.sh_addr cr.sh.sh_addr)) ∧
    w'.sections = w.sections.map (fun s => addChunks (tableData w w' s.ptr) s) ∧
    w' = { w with dynRels := w'.dynRels, pltRels := w'.pltRels, sections := w'.sections } := by
  simp only [computeTables, bind_ok] at h
  obtain ⟨g, hg, gp, hgp, cr, hcr, h⟩ := h
  have key : ∀ {p : Nat} {x : Section} {u : Writer}, u.sections.map post = w.sections.map post → u.sec p = .ok x →
      ∃ y, w.sec p = .ok y ∧ y.sh = x.sh := by
    intro p x u hu hx
    simp only [sec, unwrap_ok] at hx ⊢
    revert hu hx
    generalize u.sections = l
    generalize w.sections = l'
    induction l generalizing l' with
    | nil => intro _ h; cases h
    | cons a l ih =>
      intro h1 h2
      cases l' with
      | nil => cases h1
      | cons b l' =>
        simp only [List.map_cons, List.cons.injEq] at h1
        have hab : a.ptr = b.ptr ∧ a.sh = b.sh := by
          have := h1.1; simp only [post, Prod.mk.injEq] at this; exact ⟨this.1, this.2.2.2.2⟩
        by_cases hp : a.ptr = p
        · rw [List.find?_cons_of_pos (by simpa using hp)] at h2
          cases h2
          exact ⟨b, by rw [List.find?_cons_of_pos (by simpa [← hab.1] using hp)], hab.2.symm⟩
        · rw [List.find?_cons_of_neg (by simpa using hp)] at h2
          obtain ⟨y, hy, he⟩ := ih l' h1.2 h2
          exact ⟨y, by rw [List.find?_cons_of_neg (by simpa [← hab.1] using hp)]; exact hy, he⟩
  cases h
  refine ⟨?_, ?_, rfl⟩
  · have hpost : ∀ {u : Writer} {p : Nat} {d : Bytes}, (u.modSec p (·.addChunk d)).sections.map post = u.sections.map post :=
      fun {u p d} => modSec_map (F := post) (f := (·.addChunk d)) (fun _ _ => rfl)
    obtain ⟨g', hg', eg⟩ := key (by rw [hpost, hpost, hpost, hpost]) hg
    obtain ⟨gp', hgp', egp⟩ := key (by rw [hpost, hpost, hpost, hpost]) hgp
    obtain ⟨cr', hcr', ecr⟩ := key (by rw [hpost, hpost, hpost, hpost]) hcr
    refine ⟨g', gp', cr', hg', hgp', hcr', ?_, ?_⟩
    · rw [eg, egp, ecr]; rfl
    · rw [eg, egp, ecr]; rfl
  · simp only [modSec, List.map_map]
    apply List.map_congr_left
    intro s _
    obtain ⟨ptr, index, link, kind, sh, chunks⟩ := s
    simp only [Function.comp, tableData]
    by_cases h1 : ptr = P.shstr
    · subst h1; simp [addChunks, Section.addChunk, P.shstr, P.symstr, P.dynstr, P.dynamic, P.relaDyn, P.relaPlt]
    by_cases h2 : ptr = P.symstr
    · subst h2; simp [addChunks, Section.addChunk, P.shstr, P.symstr, P.dynstr, P.dynamic, P.relaDyn, P.relaPlt]
    by_cases h3 : ptr = P.dynstr
    · subst h3; simp [addChunks, Section.addChunk, P.shstr, P.symstr, P.dynstr, P.dynamic, P.relaDyn, P.relaPlt]
    by_cases h4 : ptr = P.dynamic
    · subst h4; simp [addChunks, Section.addChunk, P.shstr, P.symstr, P.dynstr, P.dynamic, P.relaDyn, P.relaPlt]
    by_cases h5 : ptr = P.relaDyn
    · subst h5; simp [addChunks, Section.addChunk, P.shstr, P.symstr, P.dynstr, P.dynamic, P.relaDyn, P.relaPlt]
    by_cases h6 : ptr = P.relaPlt
    · subst h6; simp [addChunks, Section.addChunk, P.shstr, P.symstr, P.dynstr, P.dynamic, P.relaDyn, P.relaPlt]
    simp [addChunks, h1, h2, h3, h4, h5, h6]

end Writer
end Dld
