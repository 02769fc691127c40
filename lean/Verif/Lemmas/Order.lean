import Verif.Lemmas.Imports
import Verif.Lemmas.Weight
import Verif.Lemmas.Progress
import Verif.Lemmas.TableRead
/-! # Two links of the same calls with different hash-map orders -/
namespace Dld
open Writer

/-! ### Sections seen without the bytes that depend on the order -/

/-- sections whose bytes depend on the order of hash maps -/
def Section.loose (s : Section) : Bool :=
  s.kind == .plt || s.kind == .symtab || s.kind == .dynsym || s.kind == .hash || s.kind == .gnuHash ||
    s.ptr == P.relaDyn || s.ptr == P.relaPlt || s.ptr == P.gotPlt || s.ptr == P.plt

/-- a chunk, or a chunk of zeros of the same length -/
def Chunk.blur (keep : Bool) (c : Chunk) : Chunk := { c with data := if keep then c.data else List.replicate c.data.length 0 }

/-- whether the bytes are looked at -/
def Section.keep (full : Bool) (s : Section) : Bool := full && !s.loose

/-- a section without the bytes that depend on the order; without any bytes unless `full` -/
def Section.blur (full : Bool) (s : Section) : Section := { s with chunks := s.chunks.map (Chunk.blur (s.keep full)) }

theorem Chunk.blur_length (k : Bool) (c : Chunk) : (c.blur k).data.length = c.data.length := by
  unfold Chunk.blur; cases k <;> simp

variable {full : Bool}

theorem Section.blur_iff {a b : Section} : a.blur full = b.blur full ↔ a.ptr = b.ptr ∧ a.index = b.index ∧ a.link = b.link ∧ a.kind = b.kind ∧
    a.sh = b.sh ∧ a.chunks.map (Chunk.blur (a.keep full)) = b.chunks.map (Chunk.blur (a.keep full)) := by
  constructor
  · intro h
    have h1 : a.ptr = b.ptr := (congrArg Section.ptr h :)
    have h4 : a.kind = b.kind := (congrArg Section.kind h :)
    have hk : b.keep full = a.keep full := by unfold Section.keep Section.loose; rw [h1, h4]
    refine ⟨h1, (congrArg Section.index h :), (congrArg Section.link h :), h4, (congrArg Section.sh h :), ?_⟩
    have := congrArg Section.chunks h
    simp only [Section.blur, hk] at this
    exact this
  · rintro ⟨h1, h2, h3, h4, h5, h6⟩
    have hk : b.keep full = a.keep full := by unfold Section.keep Section.loose; rw [h1, h4]
    cases a; cases b
    simp only at h1 h2 h3 h4 h5
    subst h1 h2 h3 h4 h5
    simp only [Section.blur, hk, Section.mk.injEq, true_and]
    exact h6

/-- the lengths agree -/
theorem Section.blur_chunks {a b : Section} (h : a.blur full = b.blur full) : a.chunks.length = b.chunks.length := by
  have := congrArg List.length (Section.blur_iff.1 h).2.2.2.2.2
  simpa using this

theorem Section.blur_addChunk {a b : Section} (h : a.blur full = b.blur full) {d e : Bytes} (hl : d.length = e.length)
    (hk : a.keep full = true → d = e) : (a.addChunk d).blur full = (b.addChunk e).blur full := by
  obtain ⟨h1, h2, h3, h4, h5, h6⟩ := Section.blur_iff.1 h
  refine Section.blur_iff.2 ⟨h1, h2, h3, h4, h5, ?_⟩
  have e1 : (a.addChunk d).keep full = a.keep full := rfl
  rw [e1]
  simp only [Section.addChunk, List.map_append, h6, List.map_cons, List.map_nil]
  congr 2
  unfold Chunk.blur
  cases hc : a.keep full
  · simp [hl]
  · simp [hk hc]

theorem Section.blur_sh {a b : Section} (h : a.blur full = b.blur full) (f : SectionHeader → SectionHeader) :
    ({ a with sh := f a.sh } : Section).blur full = ({ b with sh := f b.sh } : Section).blur full := by
  obtain ⟨h1, h2, h3, h4, h5, h6⟩ := Section.blur_iff.1 h
  exact Section.blur_iff.2 ⟨h1, h2, h3, h4, congrArg f h5, h6⟩

/-- the symbol table without the positions of `JUMP_SLOT` relocations -/
def SymbolTable.strip (t : SymbolTable) : SymbolTable :=
  { t with symbols := t.symbols.map fun e => (e.1, unrel e.2), sectionSyms := t.sectionSyms.map fun e => (e.1, e.2.map unrel) }

theorem SymbolTable.strip_of_view {t t' : SymbolTable} (h : t'.view unrel = t.view unrel) : t'.strip = t.strip := by
  unfold SymbolTable.strip
  have h1 := congrArg View.symbols h
  have h2 := congrArg View.sectionSyms h
  have h3 := congrArg View.numLocals h
  have h4 := congrArg View.isDynamic h
  simp only [SymbolTable.view] at h1 h2 h3 h4
  rw [h1, h2, h3, h4]

theorem SymbolTable.view_of_strip {t t' : SymbolTable} (h : t'.strip = t.strip) : t'.view unrel = t.view unrel := by
  unfold SymbolTable.view
  have h1 := congrArg SymbolTable.symbols h
  have h2 := congrArg SymbolTable.sectionSyms h
  have h3 := congrArg SymbolTable.numLocals h
  have h4 := congrArg SymbolTable.isDynamic h
  simp only [SymbolTable.strip] at h1 h2 h3 h4
  rw [h1, h2, h3, h4]

theorem AMap.modify_map {κ ν μ : Type} [DecidableEq κ] (m : List (κ × ν)) (k : κ) (f : ν → ν) (f' : μ → μ) (G : ν → μ)
    (h : ∀ v, G (f v) = f' (G v)) :
    ((AMap.modify m k f).map fun e => (e.1, G e.2)) = AMap.modify (m.map fun e => (e.1, G e.2)) k f' := by
  induction m with
  | nil => rfl
  | cons e m ih =>
    obtain ⟨a, b⟩ := e
    by_cases hk : a = k
    · simp only [AMap.modify, if_pos hk, List.map_cons, h]
    · simp only [AMap.modify, if_neg hk, List.map_cons, ih]

theorem SymbolTable.strip_modify {f : Symbol → Symbol} (hf : ∀ s, unrel (f s) = f (unrel s)) (t : SymbolTable) (r : SymbolRef) :
    (t.modify r f).strip = t.strip.modify r f := by
  cases r with
  | named n =>
    simp only [SymbolTable.modify, SymbolTable.strip]
    rw [AMap.modify_map _ _ f f unrel hf]
  | «section» k i =>
    simp only [SymbolTable.modify, SymbolTable.strip]
    rw [AMap.modify_map _ _ _ (fun l => l.modify i f) (List.map unrel)]
    intro l
    apply List.ext_getElem?
    intro j
    simp only [List.getElem?_map, List.getElem?_modify]
    by_cases hj : i = j
    · subst hj
      cases l[i]? <;> simp [hf]
    · simp [hj]

/-- what is the same in two links of the same calls -/
structure Alike (full : Bool) (a b : Writer) : Prop where
  sections : a.sections.map (Section.blur full) = b.sections.map (Section.blur full)
  eh : a.eh = b.eh
  gotLen : a.gotLen = b.gotLen
  gotPlt : a.gotPlt = b.gotPlt
  dynEntries : a.dynEntries = b.dynEntries
  programHeaders : a.programHeaders = b.programHeaders
  pVaddr : a.pVaddr = b.pVaddr
  startPVaddr : a.startPVaddr = b.startPVaddr
  fileOffset : a.fileOffset = b.fileOffset
  shstr : a.shstr = b.shstr
  symstr : a.symstr = b.symstr
  dynstr : a.dynstr = b.dynstr
  plt : a.plt = b.plt
  symtab : a.symtab.strip = b.symtab.strip
  dynLen : a.dynsym.symbols.length = b.dynsym.symbols.length
  dynLocals : a.dynsym.numLocals = b.dynsym.numLocals
  dynsym : full = true → a.dynsym = b.dynsym
  dynRels : a.dynRels.length = b.dynRels.length
  pltRels : a.pltRels.length = b.pltRels.length
  copySize : a.copyRel.size = b.copyRel.size

theorem Alike.refl (w : Writer) : Alike full w w :=
  ⟨rfl, rfl, rfl, rfl, rfl, rfl, rfl, rfl, rfl, rfl, rfl, rfl, rfl, rfl, rfl, rfl, fun _ => rfl, rfl, rfl, rfl⟩

/-- sections replaced by alike ones -/
theorem Alike.withSections {a b : Writer} (h : Alike full a b) {x y : List Section} (hs : x.map (Section.blur full) = y.map (Section.blur full)) :
    Alike full { a with sections := x } { b with sections := y } :=
  ⟨hs, h.eh, h.gotLen, h.gotPlt, h.dynEntries, h.programHeaders, h.pVaddr, h.startPVaddr, h.fileOffset, h.shstr, h.symstr, h.dynstr, h.plt,
    h.symtab, h.dynLen, h.dynLocals, h.dynsym, h.dynRels, h.pltRels, h.copySize⟩

theorem map_alike {x y : List Section} (h : x.map (Section.blur full) = y.map (Section.blur full)) {f g : Section → Section}
    (hfg : ∀ s t, s.blur full = t.blur full → (f s).blur full = (g t).blur full) : (x.map f).map (Section.blur full) = (y.map g).map (Section.blur full) := by
  induction x generalizing y with
  | nil => cases y with
    | nil => rfl
    | cons => cases h
  | cons s x ih => cases y with
    | nil => cases h
    | cons t y =>
      simp only [List.map_cons, List.cons.injEq] at h ⊢
      exact ⟨hfg s t h.1, ih h.2⟩

theorem Alike.modSec {a b : Writer} (h : Alike full a b) {p : Nat} {f g : Section → Section}
    (hfg : ∀ s t, s.ptr = p → s.blur full = t.blur full → (f s).blur full = (g t).blur full) : Alike full (a.modSec p f) (b.modSec p g) := by
  refine h.withSections (map_alike h.sections fun s t hst => ?_)
  have hp : s.ptr = t.ptr := (congrArg Section.ptr hst :)
  by_cases hs : s.ptr = p
  · rw [if_pos hs, if_pos (hp ▸ hs)]; exact hfg s t hs hst
  · rw [if_neg hs, if_neg (hp ▸ hs)]; exact hst

theorem find_alike {x y : List Section} (h : x.map (Section.blur full) = y.map (Section.blur full)) {p : Nat} {s t : Section}
    (hs : x.find? (fun s => s.ptr == p) = some s) (ht : y.find? (fun s => s.ptr == p) = some t) : s.blur full = t.blur full := by
  induction x generalizing y with
  | nil => cases hs
  | cons a x ih => cases y with
    | nil => cases ht
    | cons b y =>
      simp only [List.map_cons, List.cons.injEq] at h
      have hp : a.ptr = b.ptr := (congrArg Section.ptr h.1 :)
      rw [List.find?_cons] at hs ht
      rw [← hp] at ht
      cases hc : (a.ptr == p)
      · rw [hc] at hs ht; exact ih h.2 hs ht
      · rw [hc] at hs ht; cases hs; cases ht; exact h.1

theorem Alike.sec {a b : Writer} (h : Alike full a b) {p : Nat} {s t : Section} (hs : a.sec p = .ok s) (ht : b.sec p = .ok t) :
    s.blur full = t.blur full := by
  simp only [Writer.sec, unwrap_ok] at hs ht
  exact find_alike h.sections hs ht

/-! ### Expanding -/

variable {sched sched' : Sched}

theorem expand_alike (hv : sched.Valid) (hv' : sched'.Valid) {a b : Writer} (h : Alike full a b)
    (hh : (serHashTable a.hashTab).length = (serHashTable b.hashTab).length)
    (hg : (serGnuHashTable a.gnuTab).length = (serGnuHashTable b.gnuTab).length)
    {s t : Section} (hst : s.blur full = t.blur full) : (expand sched a s).blur full = (expand sched' b t).blur full := by
  have hk : s.kind = t.kind := (congrArg Section.kind hst :)
  have hsym : a.symtab.totalLen = b.symtab.totalLen := by
    have := congrArg (fun t => t.symbols.length) h.symtab
    simp only [SymbolTable.strip, List.length_map] at this
    unfold SymbolTable.totalLen; rw [this]
  have hloc : a.symtab.numLocals = b.symtab.numLocals := (congrArg SymbolTable.numLocals h.symtab :)
  have hdyn : a.dynsym.totalLen = b.dynsym.totalLen := by unfold SymbolTable.totalLen; rw [h.dynLen]
  unfold expand
  rw [← hk]
  cases he : s.kind with
  | plain => exact hst
  | plt =>
    simp only [h.plt]
    exact Section.blur_sh (Section.blur_addChunk hst rfl fun _ => rfl) fun x => { x with sh_size := b.plt.size }
  | shstr => simp only [h.shstr]; exact Section.blur_sh hst fun x => { x with sh_size := b.shstr.totalLen }
  | symstr => simp only [h.symstr]; exact Section.blur_sh hst fun x => { x with sh_size := b.symstr.totalLen }
  | dynstr => simp only [h.dynstr]; exact Section.blur_sh hst fun x => { x with sh_size := b.dynstr.totalLen }
  | hash =>
    simp only [hh]
    exact Section.blur_sh (Section.blur_addChunk hst hh (by simp [Section.keep, Section.loose, he])) fun x => { x with sh_size := (serHashTable b.hashTab).length }
  | gnuHash =>
    simp only [hg]
    exact Section.blur_sh (Section.blur_addChunk hst hg (by simp [Section.keep, Section.loose, he])) fun x => { x with sh_size := (serGnuHashTable b.gnuTab).length }
  | symtab =>
    simp only [hsym, hloc]
    exact Section.blur_sh (Section.blur_addChunk hst (by rw [SymbolTable.length_chunk hv.symIter, SymbolTable.length_chunk hv'.symIter, hsym])
      (by simp [Section.keep, Section.loose, he])) fun x => { x with sh_size := b.symtab.totalLen, sh_info := u32 b.symtab.numLocals }
  | dynsym =>
    simp only [hdyn, h.dynLocals]
    exact Section.blur_sh (Section.blur_addChunk hst (by rw [SymbolTable.length_chunk hv.dynIter, SymbolTable.length_chunk hv'.dynIter, hdyn])
      (by simp [Section.keep, Section.loose, he])) fun x => { x with sh_size := b.dynsym.totalLen, sh_info := u32 b.dynsym.numLocals }
  | copyRel => simp only [h.copySize]; exact Section.blur_sh hst fun x => { x with sh_size := b.copyRel.size }

/-! ### The hash tables -/

theorem HashTable.length_addOne {nb : Nat} {st st' : List Nat × List Nat} {i : Nat} {h : UInt32} (e : HashTable.addOne nb st i h = some st') :
    st'.1.length = st.1.length ∧ st'.2.length = st.2.length := by
  unfold HashTable.addOne at e
  simp only at e
  split at e
  · cases e
  · split at e
    · cases e; simp
    · split at e
      · cases e
      · cases e; simp

theorem HashTable.length_addLoop {nb : Nat} {l : List UInt32} : ∀ {st st' : List Nat × List Nat} {i : Nat}, HashTable.addLoop nb st i l = some st' →
    st'.1.length = st.1.length ∧ st'.2.length = st.2.length := by
  induction l with
  | nil => intro st st' i e; cases e; exact ⟨rfl, rfl⟩
  | cons h l ih =>
    intro st st' i e
    unfold HashTable.addLoop at e
    split at e
    · cases e
    · next st1 h1 =>
      obtain ⟨a, b⟩ := HashTable.length_addOne h1
      obtain ⟨c, d⟩ := ih e
      exact ⟨c.trans a, d.trans b⟩

theorem HashTable.ser_size {l : List UInt32} {t : HashTable} (h : HashTable.addSymbols l = some t) :
    (serHashTable t).length = 8 + 4 * ((u32 l.length / 2 + 1) + l.length) := by
  unfold HashTable.addSymbols at h
  simp only [Option.map_eq_some_iff] at h
  obtain ⟨⟨b, c⟩, h1, rfl⟩ := h
  obtain ⟨h2, h3⟩ := HashTable.length_addLoop h1
  simp only [List.length_replicate] at h2 h3
  unfold serHashTable HashTable.mk'
  simp only [List.length_append, length_le, length_flatMap_le, h2, h3]

theorem GnuHashTable.length_ser_of {l : List UInt32} {t : GnuHashTable} (h : GnuHashTable.addSymbols l = some t) :
    (serGnuHashTable t).length = 16 + 8 * nextPow2 ((u32 l.length - 1) * 12 / 64) + 4 * (u32 l.length / 8 + 1) + 4 * (l.length - 1) := by
  unfold GnuHashTable.addSymbols at h
  split at h
  · cases h
  · next x rest =>
    cases h
    have hbl : ∀ (l : List UInt32) (bl : List Nat), (l.foldl (fun b h => GnuHashTable.calculateBloom b h 64 26) bl).length = bl.length := by
      intro l
      induction l with
      | nil => intro _; rfl
      | cons y l ih => intro bl; rw [List.foldl_cons, ih, GnuHashTable.length_calculateBloom]
    have hch : ∀ l : List UInt32, (l.flatMap fun c => le 4 c.toNat).length = 4 * l.length := by
      intro l
      induction l with
      | nil => rfl
      | cons y l ih => simp only [List.flatMap_cons, List.length_append, ih, length_le, List.length_cons]; omega
    unfold serGnuHashTable
    simp only [List.length_append, length_le, length_flatMap_le, hbl, List.length_replicate, GnuHashTable.length_fillBuckets,
      hch, GnuHashTable.length_fillChains, List.length_cons]
    omega

theorem fillHashes_alike (hv : sched.Valid) (hv' : sched'.Valid) {a b a' b' : Writer} (h : Alike full a b)
    (ha : a.fillHashes sched = .ok a') (hb : b.fillHashes sched' = .ok b') :
    Alike full a' b' ∧ (serHashTable a'.hashTab).length = (serHashTable b'.hashTab).length ∧
    (serGnuHashTable a'.gnuTab).length = (serGnuHashTable b'.gnuTab).length := by
  simp only [fillHashes, bind_ok, unwrap_ok] at ha hb
  obtain ⟨x, x1, y, y1, ha⟩ := ha
  obtain ⟨x', x1', y', y1', hb⟩ := hb
  cases ha; cases hb
  have l1 : (a.dynsym.sorted sched.dynIter).length = (b.dynsym.sorted sched'.dynIter).length := by
    rw [SymbolTable.sorted_length hv.dynIter, SymbolTable.sorted_length hv'.dynIter, h.dynLen]
  refine ⟨⟨h.sections, h.eh, h.gotLen, h.gotPlt, h.dynEntries, h.programHeaders, h.pVaddr, h.startPVaddr, h.fileOffset, h.shstr, h.symstr, h.dynstr, h.plt,
    h.symtab, h.dynLen, h.dynLocals, h.dynsym, h.dynRels, h.pltRels, h.copySize⟩, ?_, ?_⟩
  · rw [HashTable.ser_size x1, HashTable.ser_size x1']; simp only [List.length_map, l1]
  · rw [GnuHashTable.length_ser_of y1, GnuHashTable.length_ser_of y1']; simp only [List.length_map, l1]

/-! ### The dynamic relocations -/

/-- an import without its index in `.dynsym` -/
def Import.plain (m : Import) : Import := { m with index := 0 }

theorem importOf_plain {ix ix' : List (Nat × Nat)} (h : ∀ n, (AMap.get? ix n).isSome = (AMap.get? ix' n).isSome) (t dt : SymbolTable) (k : Nat) :
    (importOf ix t dt k).map Import.plain = (importOf ix' t dt k).map Import.plain := by
  unfold importOf
  cases AMap.get? t.symbols k with
  | none => rfl
  | some s =>
    simp only [Option.bind_some]
    cases s.dynamic with
    | none => rfl
    | some d =>
      simp only [Option.bind_some]
      have := h d.st_name
      cases h1 : AMap.get? ix d.st_name <;> cases h2 : AMap.get? ix' d.st_name <;> rw [h1, h2] at this <;> simp at this
      · simp only [Option.bind_some]
        cases dt.get d <;> rfl

theorem dynSymIndices_isSome {l : List Symbol} {n : Nat} : (AMap.get? (dynSymIndices l) n).isSome = true ↔ n ∈ l.map (·.sym.st_name) := by
  constructor
  · intro h
    obtain ⟨i, hi⟩ := Option.isSome_iff_exists.1 h
    obtain ⟨s, h1, h2⟩ := dynSymIndices_get hi
    exact List.mem_map.2 ⟨s, List.mem_of_getElem? h1, h2⟩
  · intro h
    obtain ⟨s, h1, rfl⟩ := List.mem_map.1 h
    exact dynSymIndices_of_mem h1

theorem SymbolTable.sorted_orders {o o' : List Nat → List Nat} (ho : ∀ l, (o l).Perm l) (ho' : ∀ l, (o' l).Perm l) (t : SymbolTable) :
    (t.sorted o).Perm (t.sorted o') :=
  (stableSort_perm _ _).trans (((ho _).trans (ho' _).symm).filterMap _ |>.trans (stableSort_perm _ _).symm)

variable {opts : Options} {ops : List Op} {w : Writer}

theorem scanned_same (st : Early sched w) (st' : Early sched' w) : st.scanned = st'.scanned :=
  Except.ok.inj (st.hscan.symm.trans st'.hscan)

theorem imports_perm (hv : sched.Valid) (hv' : sched'.Valid) (st : Early sched w) (st' : Early sched' w) :
    (st.imports.map Import.plain).Perm (st'.imports.map Import.plain) := by
  unfold Early.imports
  rw [scanned_same st st', List.map_filterMap, List.map_filterMap]
  have hix : ∀ n, (AMap.get? (dynSymIndices (w.dynsym.sorted sched.dynIter)) n).isSome = (AMap.get? (dynSymIndices (w.dynsym.sorted sched'.dynIter)) n).isSome := by
    intro n
    rw [Bool.eq_iff_iff, dynSymIndices_isSome, dynSymIndices_isSome]
    exact ((SymbolTable.sorted_orders hv.dynIter hv'.dynIter w.dynsym).map _).mem_iff
  have : (fun k => (importOf (dynSymIndices (w.dynsym.sorted sched.dynIter)) st'.scanned.symtab w.dynsym k).map Import.plain) =
      fun k => (importOf (dynSymIndices (w.dynsym.sorted sched'.dynIter)) st'.scanned.symtab w.dynsym k).map Import.plain := by
    funext k; exact importOf_plain hix _ _ k
  rw [this]
  exact ((hv.symIter _).trans (hv'.symIter _).symm).filterMap _

theorem dynRelsFrom_length (ms : List Import) : ∀ a, (dynRelsFrom a ms).length =
    ((ms.map Import.plain).map fun m => m.got.toList.length + m.copy.toList.length).sum := by
  induction ms with
  | nil => intro a; rfl
  | cons m ms ih =>
    intro a
    simp only [dynRelsFrom, List.length_append, ih, List.map_cons, List.sum_cons, Import.plain]
    cases m.got <;> cases m.copy <;> simp

theorem called_length (ms : List Import) : (called ms).length = ((ms.map Import.plain).map fun m => m.gotPlt.toList.length).sum := by
  induction ms with
  | nil => rfl
  | cons m ms ih =>
    unfold called at ih ⊢
    cases hg : m.gotPlt
    · rw [List.filterMap_cons_none (by simp [hg]), ih]; simp [Import.plain, hg]
    · rw [List.filterMap_cons_some (by rw [hg]; rfl)]; simp only [List.length_cons, ih]; simp [Import.plain, hg]; omega

theorem copyEnd_sum (ms : List Import) : ∀ a, copyEnd a ms = a + ((ms.map Import.plain).map fun m => m.copy.getD 0).sum := by
  induction ms with
  | nil => intro a; rfl
  | cons m ms ih => intro a; simp only [copyEnd, ih, List.map_cons, List.sum_cons, Import.plain]; omega

theorem dynRelStep_nocopy {ix : List (Nat × Nat)} {ks : List Nat} {st st' : DynState} (h : foldM' (dynRelStep ix) st ks = .ok st')
    (hc : ∀ k ∈ ks, ∀ m, importOf ix st.symtab st.dynsym k = some m → m.copy = none) : st'.dynsym = st.dynsym := by
  induction ks generalizing st with
  | nil => cases h; rfl
  | cons k ks ih =>
    rw [foldM'_cons, bind_ok] at h
    obtain ⟨st1, h1, h2⟩ := h
    obtain ⟨v1, v2⟩ := dynRelStep_view (F := unrel) (G := unplace) (fun _ _ => rfl) unplace_blind h1
    have h3 := ih h2 fun k' hk m hm => hc k' (List.mem_cons_of_mem _ hk) m (by rw [← importOf_view v1 v2]; exact hm)
    rw [h3]
    have h4 := dynRelStep_import h1
    cases hm : importOf ix st.symtab st.dynsym k with
    | none => rw [hm] at h4; simp only at h4; rw [h4]
    | some m =>
      rw [hm] at h4
      simp only at h4
      rw [h4.2.2.2.2, hc k (by simp) m hm]

end Dld
