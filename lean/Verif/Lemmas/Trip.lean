import Verif.Lemmas.Contents
/-! # A section on its way through `compute_sections` -/
namespace Dld
open Writer
namespace Writer

variable {sched : Sched} {w : Writer}

/-- what naming symbols of a chunk keeps -/
def chunkBody (c : Chunk) : Option Nat × Bytes × List (Rela × SymbolRef) := (c.address, c.data, c.relocations)

theorem addSymbol_body (c : Chunk) (r : SymbolRef) : chunkBody (c.addSymbol r) = chunkBody c := by
  unfold Chunk.addSymbol; split <;> rfl

theorem modify_body {cs : List Chunk} {i : Nat} (r : SymbolRef) :
    (cs.modify i (·.addSymbol r)).map chunkBody = cs.map chunkBody := by
  apply List.ext_getElem?
  intro j
  simp only [List.getElem?_map, List.getElem?_modify]
  cases hc : cs[j]? with
  | none => rfl
  | some c => by_cases hj : i = j <;> simp [hj, addSymbol_body]

theorem boundSymbols_body {symstr : StringTable} {a b : Name} {t t' : SymbolTable} {s s' : Section}
    (h : boundSymbols symstr a b t s = .ok (t', s')) : s'.chunks.map chunkBody = s.chunks.map chunkBody := by
  have tail : ∀ s1 : Section, s1.chunks.map chunkBody = s.chunks.map chunkBody →
      (match symstr.get b with
        | some e => do
          let _ ← unwrap (t.get (.named (u32 e.offset)))
          let t := t.modify (.named (u32 e.offset)) fun x => { x with sym := { x.sym with st_value := s1.sizeOnDisk } }
          let s ← if s1.chunks.length = 0 then .error .panic
            else s1.modifyChunk (s1.chunks.length - 1) (·.addSymbol (.named (u32 e.offset)))
          .ok (t, s)
        | none => .ok (t, s1)) = (.ok (t', s') : M (SymbolTable × Section)) → s'.chunks.map chunkBody = s.chunks.map chunkBody := by
    intro s1 e1 h2
    cases hb : symstr.get b with
    | none => rw [hb] at h2; cases h2; exact e1
    | some e =>
      rw [hb] at h2
      simp only [bind_ok] at h2
      obtain ⟨_, _, h2⟩ := h2
      by_cases hz : s1.chunks.length = 0
      · simp only [if_pos hz] at h2; cases h2
      · simp only [if_neg hz] at h2
        rw [bind_ok] at h2
        obtain ⟨s2, h3, h4⟩ := h2
        cases h4
        obtain ⟨_, rfl⟩ := modifyChunk_ok h3
        exact (modify_body _).trans e1
  unfold boundSymbols at h
  cases ha : symstr.get a with
  | none =>
    rw [ha] at h
    exact tail s rfl h
  | some e =>
    rw [ha] at h
    simp only [] at h
    rw [bind_ok] at h
    obtain ⟨s1, h1, h2⟩ := h
    obtain ⟨_, rfl⟩ := modifyChunk_ok h1
    exact tail { s with chunks := s.chunks.modify 0 (·.addSymbol (.named (u32 e.offset))) } (modify_body _) h2

theorem special_body {w w' : Writer} (h : w.handleSpecialSymbols = .ok w') :
    w'.sections.map (fun s => (post s, s.chunks.map chunkBody)) = w.sections.map (fun s => (post s, s.chunks.map chunkBody)) := by
  simp only [handleSpecialSymbols, bind_ok, Prod.exists] at h
  obtain ⟨g, _, a, _, b, _, t, secs, h1, c, _, h2⟩ := h
  cases h2
  refine mapAccumM_map_eq (F := fun s : Section => (post s, s.chunks.map chunkBody)) (G := fun s : Section => (post s, s.chunks.map chunkBody)) ?_ h1
  intro _ s _ s' h
  rw [(specialStep_post h).1]
  congr 1
  unfold specialStep at h
  split at h
  · cases h; rfl
  · split at h
    · exact boundSymbols_body h
    · split at h
      · exact boundSymbols_body h
      · cases h; rfl

theorem mapAccumM_getElem {σ α β : Type} {f : σ → α → M (σ × β)} {l : List α} {s s' : σ} {bs : List β}
    (h : mapAccumM f s l = .ok (s', bs)) : bs.length = l.length ∧
      ∀ (i : Nat) (a : α), l[i]? = some a → ∃ s1 s2 b, f s1 a = .ok (s2, b) ∧ bs[i]? = some b := by
  induction l generalizing s bs with
  | nil =>
    simp only [mapAccumM] at h
    cases h
    exact ⟨rfl, fun i a h => by simp at h⟩
  | cons x l ih =>
    rw [mapAccumM_cons] at h
    obtain ⟨s1, b, s2, bs', h1, h2, h3⟩ := h
    cases h3
    obtain ⟨e, ih⟩ := ih h2
    refine ⟨by simp [e], ?_⟩
    intro i a ha
    cases i with
    | zero => simp at ha; subst ha; exact ⟨_, _, _, h1, rfl⟩
    | succ i => simpa using ih i a (by simpa using ha)

/-- the section number `i` at the stages of `compute_sections` up to its place: `s0` in the
writer at first, `a` after scanning, `p` placed -/
structure ETrip (st : Early sched w) (i : Nat) (s0 a p : Section) : Prop where
  src : ∃ j : Nat, w.sections[j]? = some s0 ∧ st.scanned.sections[j]? = some a ∧ (j = 0 ↔ i = 0)
  bare : bare a = bare s0
  scan : ∃ st1 st2, scanSection st1 s0 = .ok (st2, a)
  placed : st.placed.sections[i]? = some p
  core : SameCore { (st.growth a.ptr).apply a with index := i } p

/-- the section number `i` at the stages of `compute_sections` before relocating: `s0` in the
writer at first, `a` after scanning, `p` placed, `q` after patching the PLT, `u` after the special symbols -/
structure MTrip (st : Mid sched w) (i : Nat) (s0 a p q u : Section) : Prop extends ETrip st.toEarly i s0 a p where
  patched : st.patched.sections[i]? = some q
  patch : post q = post p ∧ (p.ptr ≠ P.plt → p.ptr ≠ P.gotPlt → q = p)
  special : st.special.sections[i]? = some u
  named : post u = post q ∧ u.chunks.map chunkBody = q.chunks.map chunkBody

/-- the section number `i` of the finished writer at the stages of `compute_sections`: `s0` in the
writer at first, `a` after scanning, `p` placed, `q` after patching the PLT, `u` after the special
symbols, `r` relocated, `s` at the end -/
structure Trip (st : Stages sched w) (i : Nat) (s0 a p q u r s : Section) : Prop extends MTrip st.toMid i s0 a p q u where
  reloc : st.relocated.sections[i]? = some r
  skip : i = 0 → r = u
  rel : 0 < i → ∃ g pl y d, st.special.sec P.got = .ok g ∧ st.special.sec P.plt = .ok pl ∧ st.special.sec P.sym = .ok y ∧
    st.special.sec P.dynsym = .ok d ∧
    relocSection [y.sh.sh_name, d.sh.sh_name] g.sh.sh_addr pl.sh.sh_addr st.relocated.symtab st.special.dynsym u = .ok r
  final : st.final.sections[i]? = some s
  fin : s = addChunks (tableData st.relocated st.tables r.ptr) r

theorem Early.trip (hv : sched.Valid) (st : Early sched w) {hs : HashStyle} {ops : List Op} (hsf : SecFacts hs ops w)
    (hu : Untouched w) {i : Nat} {p : Section} (hp : st.placed.sections[i]? = some p) :
    ∃ s0 a, ETrip st i s0 a p := by
  have hp1 := hp
  -- before placing
  have hso : ∃ b, st.sorted.sections[i]? = some b ∧ SameCore b p := by
    obtain ⟨p1, _⟩ := st.placed_eq hu
    obtain ⟨null, rest, _, _, e3⟩ := sortSecs_ok st.hsort
    rw [p1] at hp1
    cases hsp : st.sorted.sections with
    | nil => rw [e3] at hsp; simp at hsp
    | cons n l =>
      rw [hsp] at hp1
      simp only [List.take_succ_cons, List.take_zero, List.cons_append, List.nil_append] at hp1
      cases i with
      | zero => simp at hp1; exact ⟨n, rfl, hp1 ▸ ⟨rfl, rfl, rfl, rfl, rfl, rfl⟩⟩
      | succ i =>
        simp only [List.getElem?_cons_succ] at hp1 ⊢
        unfold finalState at hp1
        simp only [List.drop_succ_cons, List.drop_zero] at hp1
        obtain ⟨hi, _⟩ := List.getElem?_eq_some_iff.1 hp1
        rw [layoutLoop_length] at hi
        obtain ⟨t, ht, hc⟩ := layoutLoop_core _ _ _ i _ (List.getElem?_eq_getElem hi)
        rw [ht] at hp1; cases hp1
        exact ⟨_, List.getElem?_eq_getElem hi, hc⟩
  obtain ⟨b, hb1, hb2⟩ := hso
  obtain ⟨null, rest', e1', e2, e3⟩ := sortSecs_ok st.hsort
  rw [e3, List.getElem?_mapIdx, Option.map_eq_some_iff] at hb1
  obtain ⟨b', hb3, rfl⟩ := hb1
  have hbm : ∃ j : Nat, st.dynamic.sections[j]? = some b' ∧ (j = 0 ↔ i = 0) := by
    rw [e1']
    cases i with
    | zero => exact ⟨0, by simpa using hb3, by simp⟩
    | succ i =>
      simp only [List.getElem?_cons_succ] at hb3
      have := List.mem_of_getElem? hb3
      rw [((stableSort_perm sectionLe (sched.secOrder rest')).trans (hv.secOrder rest')).mem_iff] at this
      obtain ⟨j, hj, he⟩ := List.getElem_of_mem this
      exact ⟨j + 1, by rw [List.getElem?_cons_succ, List.getElem?_eq_getElem hj, he], by simp⟩
  obtain ⟨j, hj, hj0⟩ := hbm
  rw [st.presort hsf.known, List.getElem?_map, Option.map_eq_some_iff] at hj
  obtain ⟨a, ha, rfl⟩ := hj
  obtain ⟨s0, hs0, hba⟩ := getElem?_of_map (scan_sections st.hscan).1 ha
  have hsc : ∃ st1 st2, scanSection st1 s0 = .ok (st2, a) := by
    have hscan := st.hscan
    simp only [scanRelocations, bind_ok, Prod.exists] at hscan
    obtain ⟨x, secs, hx, he⟩ := hscan
    obtain ⟨s1, s2, b, hb, hb'⟩ := (mapAccumM_getElem hx).2 j s0 hs0
    have : st.scanned.sections = secs := by rw [← Except.ok.inj he]
    rw [this, hb'] at ha; cases ha
    exact ⟨_, _, hb⟩
  exact ⟨s0, a, ⟨j, hs0, ha, hj0⟩, hba, hsc, hp, hb2⟩

theorem Mid.trip (hv : sched.Valid) (st : Mid sched w) {hs : HashStyle} {ops : List Op} (hsf : SecFacts hs ops w)
    (hu : Untouched w) {i : Nat} {u : Section} (hu1 : st.special.sections[i]? = some u) :
    ∃ s0 a p q, MTrip st i s0 a p q u := by
  obtain ⟨q, hq1, hq2⟩ := getElem?_of_map (special_body st.hspecial) hu1
  simp only [Prod.mk.injEq] at hq2
  -- before patching
  have hp := addDynEntries_rest st.hentries
  have e1 : st.entries.sections = st.placed.sections := by rw [hp]; rfl
  obtain ⟨sp, sg, pc, gc, pd, gd, _, _, _, _, _, _, hpat⟩ := patchPlt_ok st.hpatch
  have hpb : ∃ p, st.placed.sections[i]? = some p ∧ post q = post p ∧ (p.ptr ≠ P.plt → p.ptr ≠ P.gotPlt → q = p) := by
    rw [hpat] at hq1
    simp only [modSec, List.getElem?_map, e1, Option.map_map, Option.map_eq_some_iff] at hq1
    obtain ⟨p, hp, rfl⟩ := hq1
    refine ⟨p, hp, ?_, ?_⟩
    · simp only [Function.comp]
      split <;> split <;> rfl
    · intro n1 n2
      simp only [Function.comp]
      rw [if_neg n1, if_neg n2]
  obtain ⟨p, hp1, hp2, hp3⟩ := hpb
  obtain ⟨s0, a, E⟩ := st.toEarly.trip hv hsf hu hp1
  exact ⟨s0, a, p, q, E, hq1, ⟨hp2, hp3⟩, hu1, hq2⟩

theorem Stages.trip (hv : sched.Valid) (st : Stages sched w) {hs : HashStyle} {ops : List Op} (hsf : SecFacts hs ops w)
    (hu : Untouched w) {i : Nat} {s : Section} (h : st.final.sections[i]? = some s) :
    ∃ s0 a p q u r, Trip st i s0 a p q u r s := by
  obtain ⟨_, h5, _⟩ := computeTables_ok st.htables
  have h10 := (st.final_post).2.2.2.2.2.2.2.2.2.1
  have hfin := h
  rw [h10, h5, List.getElem?_map, Option.map_eq_some_iff] at h
  obtain ⟨r, hr, rfl⟩ := h
  obtain ⟨g, pl, y, d, rest, hg, hpl, hy, hd, _, h1, h2⟩ := handleRelocations_ok st.hreloc
  have hrs : st.relocated.sections = st.special.sections.take 1 ++ rest := by rw [h2]
  have hlen : rest.length = (st.special.sections.drop 1).length := (mapAccumM_getElem h1).1
  -- the section before relocating
  have hub : ∃ u, st.special.sections[i]? = some u ∧ (i = 0 → r = u) ∧ (0 < i →
      relocSection [y.sh.sh_name, d.sh.sh_name] g.sh.sh_addr pl.sh.sh_addr st.relocated.symtab st.special.dynsym u = .ok r) := by
    rw [hrs] at hr
    cases hsp : st.special.sections with
    | nil => rw [hsp] at hr hlen; simp at hlen; subst hlen; simp at hr
    | cons n l =>
      rw [hsp] at hr hlen h1
      simp only [List.take_succ_cons, List.take_zero, List.cons_append, List.nil_append] at hr
      cases i with
      | zero => simp at hr; exact ⟨n, rfl, fun _ => hr.symm, fun h => absurd h (by omega)⟩
      | succ i =>
        simp only [List.getElem?_cons_succ] at hr ⊢
        simp only [List.drop_succ_cons, List.drop_zero] at h1 hlen
        obtain ⟨hi, _⟩ := List.getElem?_eq_some_iff.1 hr
        have hl : l[i]? = some (l[i]'(by omega)) := List.getElem?_eq_getElem _
        obtain ⟨_, _, b, hb1, hb2⟩ := (mapAccumM_getElem h1).2 i _ hl
        rw [hr] at hb2; cases hb2
        refine ⟨_, hl, fun h => absurd h (by omega), fun _ => ?_⟩
        simp only [bind_ok] at hb1
        obtain ⟨x, hx, he⟩ := hb1
        cases he; exact hx
  obtain ⟨u, hu1, hu2, hu3⟩ := hub
  obtain ⟨s0, a, p, q, T⟩ := st.toMid.trip hv hsf hu hu1
  exact ⟨s0, a, p, q, u, r, T, hr, hu2, fun hi => ⟨g, pl, y, d, hg, hpl, hy, hd, hu3 hi⟩, hfin, rfl⟩

namespace ETrip
variable {st : Early sched w} {i : Nat} {s0 a p : Section}

theorem ptr_a (h : ETrip st i s0 a p) : a.ptr = s0.ptr := congrArg (·.1) h.bare
theorem ptr_p (h : ETrip st i s0 a p) : p.ptr = s0.ptr := h.core.1.trans h.ptr_a
theorem mem0 (h : ETrip st i s0 a p) : s0 ∈ w.sections := by
  obtain ⟨j, hj, _⟩ := h.src; exact List.mem_of_getElem? hj

end ETrip

namespace MTrip
variable {st : Mid sched w} {i : Nat} {s0 a p q u : Section}

theorem ptr_q (h : MTrip st i s0 a p q u) : q.ptr = s0.ptr := (congrArg (·.1) h.patch.1).trans h.ptr_p
theorem ptr_u (h : MTrip st i s0 a p q u) : u.ptr = s0.ptr := (congrArg (·.1) h.named.1).trans h.ptr_q
end MTrip

namespace Trip
variable {st : Stages sched w} {i : Nat} {s0 a p q u r s : Section}

theorem post_r (h : Trip st i s0 a p q u r s) : post r = post u := by
  rcases Nat.eq_zero_or_pos i with h0 | h0
  · rw [h.skip h0]
  · obtain ⟨_, _, _, _, _, _, _, _, hr⟩ := h.rel h0
    exact (relocSection_post hr).1
theorem ptr_r (h : Trip st i s0 a p q u r s) : r.ptr = s0.ptr := (congrArg (·.1) h.post_r).trans h.ptr_u
theorem ptr (h : Trip st i s0 a p q u r s) : s.ptr = s0.ptr := by rw [h.fin]; exact h.ptr_r
theorem post_s (h : Trip st i s0 a p q u r s) : post s = post p := by
  rw [h.fin]
  show post r = _
  rw [h.post_r, h.named.1, h.patch.1]
theorem sh_p (h : Trip st i s0 a p q u r s) : s.sh = p.sh := congrArg (·.2.2.2.2) h.post_s

/-- relocating a chunk without relocations changes nothing -/
theorem _root_.Dld.Chunk.applyRelocations_nil {c c' : Chunk} {got plt : Nat} {t dt : SymbolTable}
    (hc : c.relocations = []) (h : c.applyRelocations got plt t dt = .ok c') : c' = c := by
  simp only [Chunk.applyRelocations, hc, foldM'_nil, bind_ok] at h
  obtain ⟨d, hd, h⟩ := h
  cases hd; cases h; rw [← hc]

theorem _root_.Dld.Writer.relocSection_nil {names : List Nat} {got plt : Nat} {t dt : SymbolTable} {s s' : Section}
    (hs : ∀ c ∈ s.chunks, c.relocations = []) (h : relocSection names got plt t dt s = .ok s') : s' = s := by
  unfold relocSection at h
  split at h
  · simp only [bind_ok, Prod.exists] at h
    obtain ⟨_, cs, h1, h2⟩ := h
    cases h2
    have : cs = s.chunks := by
      obtain ⟨hl, hg⟩ := mapAccumM_getElem h1
      apply List.ext_getElem?
      intro i
      cases hi : s.chunks[i]? with
      | none => rw [List.getElem?_eq_none_iff] at hi ⊢; omega
      | some c =>
        obtain ⟨_, _, c', h3, h4⟩ := hg i c hi
        simp only [bind_ok] at h3
        obtain ⟨x, hx, he⟩ := h3
        cases he
        rw [h4, Chunk.applyRelocations_nil (hs c (List.mem_of_getElem? hi)) hx]
    rw [this]
  · cases h; rfl

theorem _root_.Dld.Writer.scanSection_nil {st st' : ScanState} {s s' : Section} (h : scanSection st s = .ok (st', s'))
    (hs : ∀ c ∈ s.chunks, c.relocations = []) : s' = s := by
  simp only [scanSection, bind_ok, Prod.exists] at h
  obtain ⟨s1, cs, h1, h2⟩ := h
  cases h2
  have : cs = s.chunks := by
    obtain ⟨hl, hg⟩ := mapAccumM_getElem h1
    apply List.ext_getElem?
    intro i
    cases hi : s.chunks[i]? with
    | none => rw [List.getElem?_eq_none_iff] at hi ⊢; omega
    | some c =>
      obtain ⟨_, _, c', h3, h4⟩ := hg i c hi
      have hc := hs c (List.mem_of_getElem? hi)
      simp only [scanChunk, bind_ok, Prod.exists, hc, mapAccumM] at h3
      obtain ⟨_, x, hx, he⟩ := h3
      cases hx; cases he
      rw [h4, ← hc]
  rw [this]

/-- the chunks before relocating -/
theorem _root_.Dld.Writer.MTrip.chunks_u {st : Mid sched w} {i : Nat} {s0 a p q u : Section} (h : MTrip st i s0 a p q u) (hp : s0.ptr ≠ P.plt) (hg : s0.ptr ≠ P.gotPlt) :
    u.chunks.map (fun c => (c.data, c.relocations)) =
      a.chunks.map (fun c => (c.data, c.relocations)) ++ (st.growth s0.ptr).add.map fun d => (d, []) := by
  have hq : q = p := h.patch.2 (by rw [h.ptr_p]; exact hp) (by rw [h.ptr_p]; exact hg)
  have h1 := congrArg (List.map fun c : Option Nat × Bytes × List (Rela × SymbolRef) => (c.2.1, c.2.2)) h.named.2
  have h2 := congrArg (List.map fun c : Bytes × List SymbolRef × List (Rela × SymbolRef) => (c.1, c.2.2)) h.core.2.2.2.2.2
  simp only [List.map_map, Function.comp_def, chunkBody] at h1 h2
  rw [h1, hq, h2]
  simp [Growth.apply, h.ptr_a]

/-- a section without relocations keeps its data -/
theorem datas_eq (h : Trip st i s0 a p q u r s) (hp : s0.ptr ≠ P.plt) (hg : s0.ptr ≠ P.gotPlt)
    (ha : ∀ c ∈ s0.chunks, c.relocations = []) :
    s.chunks.map (·.data) = s0.chunks.map (·.data) ++ (st.growth s0.ptr).add ++ tableData st.relocated st.tables s0.ptr := by
  obtain ⟨_, _, hsc⟩ := h.scan
  have hsa : a = s0 := scanSection_nil hsc ha
  have hu := h.chunks_u hp hg
  have hru : r = u := by
    rcases Nat.eq_zero_or_pos i with h0 | h0
    · exact h.skip h0
    · obtain ⟨_, _, _, _, _, _, _, _, hr⟩ := h.rel h0
      refine relocSection_nil ?_ hr
      intro c hc
      have : (c.data, c.relocations) ∈ u.chunks.map (fun c => (c.data, c.relocations)) := List.mem_map.2 ⟨c, hc, rfl⟩
      rw [hu, List.mem_append] at this
      rcases this with h1 | h1
      · obtain ⟨c', hc', he⟩ := List.mem_map.1 h1
        simp only [Prod.mk.injEq] at he
        rw [← he.2, ha c' (hsa ▸ hc')]
      · obtain ⟨d, _, he⟩ := List.mem_map.1 h1
        simp only [Prod.mk.injEq] at he
        exact he.2.symm
  have h3 := congrArg (List.map (·.1)) hu
  simp only [List.map_map, Function.comp_def, List.map_append, List.map_id', hsa] at h3
  rw [h.fin, h.ptr_r, hru]
  simp [addChunks, Function.comp_def, h3]

/-- a section without relocations keeps the data it has after patching the PLT -/
theorem datas_patched (h : Trip st i s0 a p q u r s) (hq : ∀ c ∈ q.chunks, c.relocations = []) :
    s.chunks.map (·.data) = q.chunks.map (·.data) ++ tableData st.relocated st.tables s0.ptr := by
  have h1 := congrArg (List.map fun c : Option Nat × Bytes × List (Rela × SymbolRef) => (c.2.1, c.2.2)) h.named.2
  simp only [List.map_map, Function.comp_def, chunkBody] at h1
  have hru : r = u := by
    rcases Nat.eq_zero_or_pos i with h0 | h0
    · exact h.skip h0
    · obtain ⟨_, _, _, _, _, _, _, _, hr⟩ := h.rel h0
      refine relocSection_nil ?_ hr
      intro c hc
      have : (c.data, c.relocations) ∈ u.chunks.map (fun c => (c.data, c.relocations)) := List.mem_map.2 ⟨c, hc, rfl⟩
      rw [h1] at this
      obtain ⟨c', hc', he⟩ := List.mem_map.1 this
      simp only [Prod.mk.injEq] at he
      rw [← he.2, hq c' hc']
  have h3 := congrArg (List.map (·.1)) h1
  simp only [List.map_map, Function.comp_def] at h3
  rw [h.fin, h.ptr_r, hru]
  simp [addChunks, Function.comp_def, h3]

end Trip

/-- the chunks of a grown section without chunks of its own -/
theorem ETrip.chunks_p {st : Early sched w} {i : Nat} {s0 a p : Section} (h : ETrip st i s0 a p) (h0 : s0.chunks = []) :
    p.chunks.map (fun c => (c.data, c.relocations)) = (st.growth s0.ptr).add.map fun d => (d, []) := by
  obtain ⟨_, _, hsc⟩ := h.scan
  have hsa : a = s0 := scanSection_nil hsc (by rw [h0]; simp)
  have h2 := congrArg (List.map fun c : Bytes × List SymbolRef × List (Rela × SymbolRef) => (c.1, c.2.2)) h.core.2.2.2.2.2
  simp only [List.map_map, Function.comp_def] at h2
  rw [h2]
  simp [Growth.apply, hsa, h0]

/-- `patch_plt_and_got_plt` with the patched bytes -/
theorem patchPlt_data {w w' : Writer} (h : w.patchPlt sched = .ok w') :
    ∃ p g pc gc d pd gd, w.sec P.plt = .ok p ∧ w.sec P.gotPlt = .ok g ∧ p.chunks[0]? = some pc ∧ g.chunks[0]? = some gc ∧
      patchPltHeader p.sh.sh_addr g.sh.sh_addr pc.data = .ok d ∧
      foldM' (patchPltEntry w.symtab p.sh.sh_addr g.sh.sh_addr) (d, gc.data)
        ((sched.gotPltIter (AMap.keys w.gotPlt)).filterMap fun r => (AMap.get? w.gotPlt r).map fun o => (r, o)) = .ok (pd, gd) ∧
      w' = (w.modSec P.plt (setChunk0 pd)).modSec P.gotPlt (setChunk0 gd) := by
  simp only [patchPlt, bind_ok, unwrap_ok] at h
  obtain ⟨p, hp, g, hg, pc, hpc, gc, hgc, d, hd, e, he, h⟩ := h
  obtain ⟨pd, gd⟩ := e
  cases h
  exact ⟨p, g, pc, gc, d, pd, gd, hp, hg, hpc, hgc, hd, he, rfl⟩

end Writer
end Dld
