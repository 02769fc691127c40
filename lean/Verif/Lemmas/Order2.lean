import Verif.Lemmas.Order
import Verif.Spec.Order
/-! # Two links of the same calls with different hash-map orders: the stages -/
namespace Dld
open Writer

variable {full : Bool} {sched sched' : Sched} {opts : Options} {ops : List Op} {w : Writer}

/-! ### Loops that only see headers -/

theorem foldM'_sh {σ : Type} {f : σ → Section → M σ} {g : σ → SectionHeader → M σ} (h : ∀ z s, f z s = g z s.sh) :
    ∀ (l : List Section) (z : σ), foldM' f z l = foldM' g z (l.map (·.sh)) := by
  intro l
  induction l with
  | nil => intro z; rfl
  | cons s l ih =>
    intro z
    simp only [List.map_cons, foldM', h]
    split
    · rfl
    · exact ih _

theorem blur_shs {x y : List Section} (h : x.map (Section.blur full) = y.map (Section.blur full)) : x.map (·.sh) = y.map (·.sh) :=
  map_of_map h (fun s => s.sh) (fun _ => rfl)

theorem setSize_alike {s t : Section} (h : s.blur full = t.blur full) (n : Nat) : (setSize n s).blur full = (setSize n t).blur full :=
  Section.blur_sh h fun x => { x with sh_size := n }

theorem sizeDynamic_alike {a b a' b' : Writer} (h : Alike full a b) (ha : a.sizeDynamic = .ok a') (hb : b.sizeDynamic = .ok b') :
    Alike full a' b' := by
  simp only [sizeDynamic, bind_ok] at ha hb
  obtain ⟨n, h1, ha⟩ := ha
  obtain ⟨m, h2, hb⟩ := hb
  have hn : n = m := by
    have e1 := foldM'_sh (f := fun n s => do let name ← a.secName s; .ok (n + Dld.dynEntries name s.sh)) (g := fun n (sh : SectionHeader) => (unwrap (a.shstr.name sh.sh_name)) >>= fun name => .ok (n + Dld.dynEntries name sh)) (fun _ _ => rfl) a.sections 0
    have e2 := foldM'_sh (f := fun n s => do let name ← b.secName s; .ok (n + Dld.dynEntries name s.sh)) (g := fun n (sh : SectionHeader) => (unwrap (b.shstr.name sh.sh_name)) >>= fun name => .ok (n + Dld.dynEntries name sh)) (fun _ _ => rfl) b.sections 0
    rw [← h.shstr, ← blur_shs h.sections, ← e1] at e2
    have h2 := (e2.symm.trans h2)
    rw [h1] at h2
    exact Except.ok.inj h2
  rw [← Except.ok.inj ha, ← Except.ok.inj hb, h.dynEntries, hn]
  exact h.modSec fun s t _ hst => setSize_alike hst _

theorem addDynEntries_alike {a b a' b' : Writer} (h : Alike full a b) (ha : a.addDynEntries = .ok a') (hb : b.addDynEntries = .ok b') :
    Alike full a' b' := by
  simp only [addDynEntries, bind_ok] at ha hb
  obtain ⟨n, h1, ha⟩ := ha
  obtain ⟨m, h2, hb⟩ := hb
  have hn : n = m := by
    have e1 := foldM'_sh (f := fun es s => do let name ← a.secName s; .ok (es ++ dynEntriesOf name s.sh)) (g := fun es (sh : SectionHeader) => (unwrap (a.shstr.name sh.sh_name)) >>= fun name => .ok (es ++ dynEntriesOf name sh)) (fun _ _ => rfl) a.sections a.dynEntries
    have e2 := foldM'_sh (f := fun es s => do let name ← b.secName s; .ok (es ++ dynEntriesOf name s.sh)) (g := fun es (sh : SectionHeader) => (unwrap (b.shstr.name sh.sh_name)) >>= fun name => .ok (es ++ dynEntriesOf name sh)) (fun _ _ => rfl) b.sections b.dynEntries
    rw [← h.shstr, ← blur_shs h.sections, ← h.dynEntries, ← e1] at e2
    rw [← h.dynEntries] at h2
    have h2 := (e2.symm.trans h2)
    rw [h1] at h2
    exact Except.ok.inj h2
  rw [← Except.ok.inj ha, ← Except.ok.inj hb, hn]
  exact ⟨h.sections, h.eh, h.gotLen, h.gotPlt, rfl, h.programHeaders, h.pVaddr, h.startPVaddr, h.fileOffset, h.shstr, h.symstr, h.dynstr, h.plt,
    h.symtab, h.dynLen, h.dynLocals, h.dynsym, h.dynRels, h.pltRels, h.copySize⟩

/-! ### Sorting -/

theorem sortSecs_alike (hs : SameSort sched sched') {a b a' b' : Writer} (h : Alike full a b) (ha : a.sortSecs sched = .ok a')
    (hb : b.sortSecs sched' = .ok b') : Alike full a' b' := by
  obtain ⟨na, ra, e1, e2, e3⟩ := sortSecs_ok ha
  obtain ⟨nb, rb, f1, f2, f3⟩ := sortSecs_ok hb
  obtain ⟨π, p1, p2⟩ := hs
  have hsec := h.sections
  rw [e1, f1] at hsec
  simp only [List.map_cons, List.cons.injEq] at hsec
  have hord : (sched.secOrder ra).map (Section.blur full) = (sched'.secOrder rb).map (Section.blur full) := by
    rw [p1, p2, List.map_filterMap, List.map_filterMap, blur_shs hsec.2]
    congr 1
    funext i
    rw [← List.getElem?_map, ← List.getElem?_map, hsec.2]
  have hsort : (stableSort sectionLe (sched.secOrder ra)).map (Section.blur full) = (stableSort sectionLe (sched'.secOrder rb)).map (Section.blur full) := by
    have e1 := stableSort_map (le := sectionLe) (le' := sectionLe) (f := Section.blur full) (fun _ _ => rfl) (sched.secOrder ra)
    have e2 := stableSort_map (le := sectionLe) (le' := sectionLe) (f := Section.blur full) (fun _ _ => rfl) (sched'.secOrder rb)
    rw [← e1, ← e2, hord]
  rw [e2, f2]
  refine h.withSections ?_
  rw [e3, f3]
  have key : ∀ l : List Section, (l.mapIdx fun i s => { s with index := i }).map (Section.blur full) =
      (l.map (Section.blur full)).mapIdx fun i s => { s with index := i } := by
    intro l
    apply List.ext_getElem?
    intro i
    simp only [List.getElem?_map, List.getElem?_mapIdx, Option.map_map]
    rfl
  rw [key, key, List.map_cons, List.map_cons, hsec.1, hsort]

/-! ### Placing -/

theorem setChunkAddrs_blur (k : Bool) (cs : List Chunk) : ∀ base, Section.setChunkAddrs base (cs.map (Chunk.blur k)) = (Section.setChunkAddrs base cs).map (Chunk.blur k) := by
  induction cs with
  | nil => intro base; rfl
  | cons c cs ih => intro base; simp only [List.map_cons, Section.setChunkAddrs, ih, Chunk.blur_length]; rfl

theorem setAddress_blur (s : Section) (a : Nat) : (s.blur full).setAddress a = (s.setAddress a).blur full := by
  unfold Section.setAddress Section.blur
  simp only [setChunkAddrs_blur]
  rfl

theorem placeSection_blur (st : LayoutState) (s : Section) :
    placeSection st (s.blur full) = ((placeSection st s).1, (placeSection st s).2.blur full) := by
  have hsh : (s.blur full).sh = s.sh := rfl
  have hsz : (s.blur full).sizeOnDisk = s.sizeOnDisk := rfl
  have hsa : ∀ a, ((s.blur full).setAddress a) = (s.setAddress a).blur full := setAddress_blur s
  unfold placeSection
  simp only [hsh]
  by_cases hf : s.sh.sh_flags ≠ st.flags
  · rw [if_pos hf, if_pos hf]
    by_cases ha : hasFlag s.sh.sh_flags SHF_ALLOC = true
    · rw [if_pos ha, if_pos ha]
      simp only [loadHeader, hsh, hsa]
      rfl
    · rw [if_neg ha, if_neg ha]
      simp only [placeInFile, hsz]
      rfl
  · rw [if_neg hf, if_neg hf]
    simp only [placeInFile, hsz]
    cases hc : st.cur with
    | none => rfl
    | some ph =>
      simp only
      refine Prod.ext rfl ?_
      exact setAddress_blur (full := full) { s with sh := { s.sh with sh_offset := st.fileOffset } } st.pVaddr

theorem layoutStep_blur (i : SectionHeader → Bool) (st : LayoutState) (s : Section) :
    layoutStep i st (s.blur full) = ((layoutStep i st s).1, (layoutStep i st s).2.blur full) := by
  unfold layoutStep
  rw [placeSection_blur]
  generalize placeSection st s = r
  obtain ⟨st1, s1⟩ := r
  simp only
  have hsh : (s1.blur full).sh = s1.sh := rfl
  simp only [hsh]
  cases pType (i s1.sh) s1.sh <;> rfl

theorem layoutLoop_blur (i : SectionHeader → Bool) (l : List Section) : ∀ st, layoutLoop i st (l.map (Section.blur full)) =
    ((layoutLoop i st l).1, (layoutLoop i st l).2.map (Section.blur full)) := by
  induction l with
  | nil => intro st; rfl
  | cons s l ih => intro st; simp only [List.map_cons, layoutLoop, layoutStep_blur, ih]

theorem countLoads_blur (l : List Section) : ∀ f, countLoads f (l.map (Section.blur full)) = countLoads f l := by
  induction l with
  | nil => intro f; rfl
  | cons s l ih =>
    intro f
    have hsh : (s.blur full).sh = s.sh := rfl
    simp only [List.map_cons, countLoads, hsh, ih]

theorem generateProgramHeaders_blur (i : SectionHeader → Bool) (p f v : Nat) (l : List Section) :
    generateProgramHeaders i p f v (l.map (Section.blur full)) =
      ((generateProgramHeaders i p f v l).1.map (Section.blur full), (generateProgramHeaders i p f v l).2) := by
  unfold generateProgramHeaders countProgramHeaders
  simp only [← List.map_drop, ← List.map_take, countLoads_blur, layoutLoop_blur, List.map_append]

theorem genProgramHeaders_alike {a b : Writer} (h : Alike full a b) : Alike full a.genProgramHeaders b.genProgramHeaders := by
  have h1 := generateProgramHeaders_blur (full := full) (fun sh => a.shstr.name sh.sh_name == some b!".interp") a.eh.e_phentsize a.fileOffset a.pVaddr a.sections
  have h2 := generateProgramHeaders_blur (full := full) (fun sh => a.shstr.name sh.sh_name == some b!".interp") a.eh.e_phentsize a.fileOffset a.pVaddr b.sections
  rw [h.sections, h2] at h1
  unfold genProgramHeaders
  rw [← h.shstr, ← h.eh, ← h.fileOffset, ← h.pVaddr]
  generalize generateProgramHeaders (fun sh => a.shstr.name sh.sh_name == some b!".interp") a.eh.e_phentsize a.fileOffset a.pVaddr a.sections = x at h1 ⊢
  generalize generateProgramHeaders (fun sh => a.shstr.name sh.sh_name == some b!".interp") a.eh.e_phentsize a.fileOffset a.pVaddr b.sections = y at h1 ⊢
  obtain ⟨x1, x2, x3, x4⟩ := x
  obtain ⟨y1, y2, y3, y4⟩ := y
  simp only [Prod.mk.injEq] at h1
  obtain ⟨g1, g2, g3, g4⟩ := h1
  subst g2 g3 g4
  exact ⟨g1.symm, rfl, h.gotLen, h.gotPlt, h.dynEntries, congrArg (y2 ++ ·) h.programHeaders, rfl, h.startPVaddr, rfl, rfl, h.symstr, h.dynstr, h.plt,
    h.symtab, h.dynLen, h.dynLocals, h.dynsym, h.dynRels, h.pltRels, h.copySize⟩

/-! ### The PLT -/

theorem setChunk0_alike {s t : Section} (h : s.blur full = t.blur full) (hl : s.loose = true) {d e : Bytes} (he : d.length = e.length) :
    (setChunk0 d s).blur full = (setChunk0 e t).blur full := by
  obtain ⟨h1, h2, h3, h4, h5, h6⟩ := Section.blur_iff.1 h
  have hk : s.keep full = false := by simp [Section.keep, hl]
  refine Section.blur_iff.2 ⟨h1, h2, h3, h4, h5, ?_⟩
  have hk' : (setChunk0 d s).keep full = false := hk
  rw [hk] at h6
  rw [hk']
  simp only [setChunk0]
  cases hc : s.chunks with
  | nil => cases hc' : t.chunks with
    | nil => rfl
    | cons => rw [hc, hc'] at h6; cases h6
  | cons c cs => cases hc' : t.chunks with
    | nil => rw [hc, hc'] at h6; cases h6
    | cons c' cs' =>
      rw [hc, hc'] at h6
      simp only [List.map_cons, List.cons.injEq] at h6
      simp only [List.modify_zero_cons, List.map_cons, List.cons.injEq]
      refine ⟨?_, h6.2⟩
      have e1 := congrArg Chunk.address h6.1
      have e2 := congrArg Chunk.symbols h6.1
      have e3 := congrArg Chunk.relocations h6.1
      simp only [Chunk.blur] at e1 e2 e3 ⊢
      simp [e1, e2, e3, he]

theorem patchPlt_alike {a b a' b' : Writer} (h : Alike full a b) (ha : a.patchPlt sched = .ok a') (hb : b.patchPlt sched' = .ok b') :
    Alike full a' b' := by
  obtain ⟨p, g, pc, gc, pd, gd, p1, g1, c1, d1, l1, m1, rfl⟩ := patchPlt_ok ha
  obtain ⟨p', g', pc', gc', pd', gd', p2, g2, c2, d2, l2, m2, rfl⟩ := patchPlt_ok hb
  have hp := h.sec p1 p2
  have hg := h.sec g1 g2
  have key : ∀ {s t : Section} {c c' : Chunk}, s.blur full = t.blur full → s.chunks[0]? = some c → t.chunks[0]? = some c' → c.data.length = c'.data.length := by
    intro s t c c' hst hc hc'
    have := congrArg (fun l => l[0]?.map fun c => c.data.length) (Section.blur_iff.1 hst).2.2.2.2.2
    simp only [List.getElem?_map, hc, hc', Option.map_some, Chunk.blur_length, Option.some.injEq] at this
    exact this
  refine Alike.modSec (Alike.modSec h fun s t hs hst => ?_) fun s t hs hst => ?_
  · exact setChunk0_alike hst (by simp [Section.loose, hs]) (by rw [l1, l2, key hp c1 c2])
  · exact setChunk0_alike hst (by simp [Section.loose, hs]) (by rw [m1, m2, key hg d1 d2])

end Dld
