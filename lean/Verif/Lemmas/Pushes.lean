import Verif.Lemmas.Placed
import Verif.Spec.Contents
/-! # Where the data of a pushed section ends up -/
namespace Dld
open Writer Spec
variable {opts : Options} {ops a b : List Op} {sched : Sched} {w w' : Writer} {file : Bytes} {secs : List Section}

theorem Hist.split (h : Hist opts ops w) : ∀ {a op b}, ops = a ++ op :: b →
    ∃ w1 w2, Hist opts a w1 ∧ Step w1 op w2 ∧ Hist opts (a ++ [op]) w2 := by
  induction h with
  | init h0 => intro a op b e; simp at e
  | @step ops o w w2 h hs ih =>
    intro a op b e
    rcases List.eq_nil_or_concat b with rfl | ⟨b', z, rfl⟩
    · rw [List.append_singleton_inj] at e
      obtain ⟨rfl, rfl⟩ := e
      exact ⟨w, w2, h, hs, .step h hs⟩
    · have e' : ops ++ [o] = (a ++ op :: b') ++ [z] := by rw [e]; simp
      rw [List.append_singleton_inj] at e'
      exact ih e'.1

/-- the section behind a push -/
theorem Hist.pushed_section (h : Hist opts ops w) {n : Name} {sh : SectionHeader} {d : Option Bytes} {r : SectionRef}
    (hp : Op.push n sh d r ∈ ops) (hn : n ∉ tabNames opts.hashStyle) :
    ∃ s ∈ w.sections, s.ptr = r.ptr ∧ P.first ≤ s.ptr ∧ ∃ p ps, pushesOf n ops = p :: ps ∧
      s.sh.sh_size = ((pushesOf n ops).map (·.1.sh_size)).sum ∧
      s.sh.sh_addralign = ps.foldl (fun a p => max a p.1.sh_addralign) p.1.sh_addralign ∧
      s.sh.sh_type = p.1.sh_type ∧ s.sh.sh_flags = p.1.sh_flags ∧
      s.chunks.map (·.data) = p.2.getD [] :: ps.filterMap (·.2) := by
  obtain ⟨w0, pn, h0, hI⟩ := h.winv
  obtain ⟨_, i, h1, h2⟩ := h.cinv.push n sh d r hp
  rw [Holds.keys hI.names] at h1
  have hi : (tabNames opts.hashStyle).length ≤ i := by
    apply Nat.le_of_not_lt
    intro hi
    rw [List.getElem?_append_left hi] at h1
    exact hn (List.mem_of_getElem? h1)
  rw [List.getElem?_append_right hi] at h1
  rw [List.getElem?_map, Option.map_eq_some_iff] at h2
  obtain ⟨s, hs, hsp⟩ := h2
  obtain ⟨n', p, ps, hn', hps, hm⟩ := hI.pushed (i - (tabNames opts.hashStyle).length) s (by rw [Nat.add_sub_cancel' hi]; exact hs)
  rw [h1] at hn'
  cases hn'
  refine ⟨s, List.mem_of_getElem? hs, hsp, ?_, p, ps, hps, ?_, ?_, ?_, ?_, ?_⟩
  · rw [hm.ptr]; simp [firstSection]
  · rw [hm.sh, hps]; simp [firstSection]
  · rw [hm.sh]; rfl
  · rw [hm.sh]; rfl
  · rw [hm.sh]; rfl
  · rw [hm.data]; simp [firstSection]

/-- a push returns the last chunk of its section -/
theorem pushSection_chunk {n : Name} {sh : SectionHeader} {d : Option Bytes} {r : SectionRef}
    (h : w.pushSection n sh d = .ok (w', r)) : ∃ s ∈ w'.sections, s.ptr = r.ptr ∧ r.chunk = s.chunks.length - 1 := by
  unfold pushSection at h
  simp only at h
  split at h
  · cases h
    exact ⟨_, List.mem_append_right _ (List.mem_singleton.2 rfl), rfl, rfl⟩
  · split at h
    · cases h
    · next s hs =>
      obtain ⟨hi, _⟩ := List.getElem?_eq_some_iff.1 hs
      split at h
      · cases h
        exact ⟨_, List.mem_iff_getElem?.2 ⟨_, List.getElem?_set_self hi⟩, rfl, by simp [Section.addChunk]⟩
      · split at h
        · cases h
        · cases h
          exact ⟨_, List.mem_iff_getElem?.2 ⟨_, List.getElem?_set_self hi⟩, rfl, rfl⟩

theorem mem_pushesOf' {n : Name} {sh : SectionHeader} {d : Option Bytes} {r : SectionRef} (h : Op.push n sh d r ∈ ops) :
    (sh, d) ∈ pushesOf n ops := by
  induction ops with
  | nil => cases h
  | cons op ops ih =>
    rcases List.mem_cons.1 h with rfl | h
    · simp [pushesOf]
    · have := ih h
      cases op with
      | push m sh' d' r' =>
        simp only [pushesOf]
        split
        · exact List.mem_cons_of_mem _ this
        · exact this
      | _ => exact this

/-- the reference a push with data returned -/
theorem Hist.push_ref (h : Hist opts ops w) {n : Name} {sh : SectionHeader} {data : Bytes} {r : SectionRef}
    (e : ops = a ++ Op.push n sh (some data) r :: b) (hn : n ∉ tabNames opts.hashStyle) :
    r.chunk = (((pushesOf n a).headD (sh, some data)).2.getD [] :: ((pushesOf n a ++ [(sh, some data)]).drop 1).filterMap (·.2)).length - 1 := by
  obtain ⟨w1, w2, hw1, hstep, hw2⟩ := h.split e
  cases hstep with
  | push hp =>
    obtain ⟨s, hs, hsp, hsc⟩ := pushSection_chunk hp
    obtain ⟨s', hs', hsp', _, p, ps, e1, _, _, _, _, e2⟩ := hw2.pushed_section (n := n) (r := r) (List.mem_append_right _ (List.mem_singleton.2 rfl)) hn
    obtain ⟨w0, pn, h0, hI⟩ := hw2.winv
    rw [eq_of_ptr (hI.ptrs_nodup h0) hs hs' (hsp.trans hsp'.symm)] at hsc
    rw [hsc, ← List.length_map (f := fun c : Chunk => c.data), e2]
    rw [pushesOf_append] at e1
    have e3 : pushesOf n [Op.push n sh (some data) r] = [(sh, some data)] := by simp [pushesOf]
    rw [e3] at e1
    rw [e1]
    cases hq : pushesOf n a with
    | nil => rw [hq] at e1; cases e1; rfl
    | cons q qs =>
      rw [hq] at e1
      cases e1
      rfl

/-- a name of clean inputs is none of the writer's own -/
theorem CleanInputs.foreign (hc : CleanInputs ops) {n : Name} {sh : SectionHeader} {d : Option Bytes} {r : SectionRef}
    (hp : Op.push n sh d r ∈ ops) (hn : n ≠ []) (hs : HashStyle) : n ∉ tabNames hs := by
  intro hm
  have : ∀ n ∈ tabNames hs, n ≠ [] → n ∈ reservedNames := by cases hs <;> decide
  exact hc.names n sh d r hp (this n hm hn)

/-- the data of all pushes of a name, if the first has data -/
theorem CleanInputs.datas (hc : CleanInputs ops) {n : Name} {sh : SectionHeader} {d : Option Bytes} {r : SectionRef}
    (hp : Op.push n sh d r ∈ ops) (hn : n ≠ []) (hd : d.isSome) : ∀ p ∈ pushesOf n ops, ∃ x, p.2 = some x ∧ x.length = p.1.sh_size := by
  intro p hm
  obtain ⟨r', hr'⟩ := mem_pushesOf (n := n) (ops := ops) (p := p) hm
  cases hx : p.2 with
  | some x => exact ⟨x, rfl, hc.size n p.1 x r' (by rw [← hx]; exact hr')⟩
  | none =>
    have h1 := (hc.nobits n p.1 p.2 r' hn hr').2 hx
    have h2 := (hc.nobits n sh d r hn hp).1 ((hc.same _ _ _ _ _ _ _ hr' hp).1 h1)
    rw [h2] at hd; cases hd

theorem slice_flatMap {α : Type} {f : α → Bytes} {l : List α} : ∀ {k : Nat} {c : α}, l[k]? = some c →
    slice (l.flatMap f) ((l.take k).map fun x => (f x).length).sum (f c).length = f c := by
  induction l with
  | nil => intro k c h; simp at h
  | cons x l ih =>
    intro k c h
    cases k with
    | zero =>
      simp only [List.getElem?_cons_zero, Option.some.injEq] at h
      subst h
      simp [slice]
    | succ k =>
      simp only [List.getElem?_cons_succ] at h
      have := ih h
      simp only [List.flatMap_cons, List.take_succ_cons, List.map_cons, List.sum_cons]
      rw [slice_append_right (by omega)]
      rw [Nat.add_sub_cancel_left]
      exact this

theorem sum_take_eq {α : Type} (f : α → Nat) (l : List α) (k : Nat) : ((l.take k).map f).sum = ((l.map f).take k).sum := by rw [List.map_take]

theorem filterMap_all {α : Type} {ps : List (α × Option Bytes)} {F : α × Option Bytes → Bytes → Prop} (h : ∀ q ∈ ps, ∃ x, q.2 = some x ∧ F q x) :
    ps.filterMap (·.2) = ps.map fun q => q.2.getD [] := by
  induction ps with
  | nil => rfl
  | cons q ps ih =>
    obtain ⟨x, hx, _⟩ := h q (by simp)
    rw [List.filterMap_cons, hx, List.map_cons, hx, ih fun q hq => h q (by simp [hq])]
    rfl

/-- the section of the file a push went to -/
theorem GoodRun.push_section (G : GoodRun opts ops sched w w' file secs) {n : Name} {sh : SectionHeader} {d : Option Bytes} {r : SectionRef}
    (hp : Op.push n sh d r ∈ ops) : ∃ t ∈ secs, t.ptr = r.ptr ∧ sectionsNamed file n = [t.sh.toSpec] := by
  obtain ⟨t, ht, htp, htn⟩ := G.run.push_named G.good G.names hp
  refine ⟨t, ht, htp, ?_⟩
  have h1 := (C49_names G).2.2.1 n sh d r hp
  have h2 : t.sh.toSpec ∈ sectionsNamed file n := by
    rw [G.named]
    exact List.mem_map.2 ⟨t, List.mem_filter.2 ⟨ht, by simp [htn]⟩, rfl⟩
  cases hl : sectionsNamed file n with
  | nil => rw [hl] at h2; cases h2
  | cons x l =>
    rw [hl] at h1 h2
    cases l with
    | nil => rw [List.mem_singleton.1 h2]
    | cons _ _ => simp at h1

/-- **What becomes of a push with data.** -/
theorem GoodRun.push_fate (G : GoodRun opts ops sched w w' file secs) {n : Name} {sh : SectionHeader} {data : Bytes} {r : SectionRef}
    (e : ops = a ++ Op.push n sh (some data) r :: b) (hn : n ≠ []) {g pl : Section} (hg : g ∈ secs) (pg : g.ptr = P.got)
    (hpl : pl ∈ secs) (ppl : pl.ptr = P.plt) :
    ∃ t ∈ secs, t.ptr = r.ptr ∧ sectionsNamed file n = [t.sh.toSpec] ∧ bodyOf file t.sh.toSpec = contents t ∧ ∃ c0 c',
      c0.data = data ∧ c0.relocations = relocsAt r ops ∧
      ChunkFate w w' g.sh.sh_addr pl.sh.sh_addr (if t.alloc then some (t.sh.sh_addr + startOf n a) else none) c0 c' ∧
      startOf n a + data.length ≤ (contents t).length ∧
      slice (contents t) (startOf n a) data.length = c'.data := by
  have hp : Op.push n sh (some data) r ∈ ops := by rw [e]; simp
  have hf := G.good.clean.foreign hp hn opts.hashStyle
  obtain ⟨t, ht, htp, hsn⟩ := G.push_section hp
  obtain ⟨s, hs, hsp, hfirst, p, ps, hps, _, _, _, _, hd⟩ := G.run.hist.pushed_section hp hf
  obtain ⟨s0, hs0, hs0p, hlen, _, hch⟩ := G.run.pushed G.good.flags G.names ht (by rw [htp, ← hsp]; exact hfirst) hg pg hpl ppl
  obtain ⟨w0, pn, h0, hI⟩ := G.run.hist.winv
  have hss : s0 = s := eq_of_ptr (hI.ptrs_nodup h0) hs0 hs (by rw [hs0p, htp, hsp])
  subst hss
  have hall := G.good.clean.datas hp hn rfl
  have hd' : s0.chunks.map (·.data) = (pushesOf n ops).map fun p => p.2.getD [] := by
    rw [hd, hps, List.map_cons]
    congr 1
    rw [hps] at hall
    have : ∀ q ∈ ps, ∃ x, q.2 = some x ∧ x.length = q.1.sh_size := fun q hq => hall q (by simp [hq])
    exact filterMap_all this
  have hpo : pushesOf n ops = pushesOf n a ++ (sh, some data) :: pushesOf n b := by
    rw [e, pushesOf_append]; simp [pushesOf]
  have hk : r.chunk = (pushesOf n a).length := by
    rw [G.run.hist.push_ref e hf]
    have hall' : ∀ q ∈ pushesOf n a, ∃ x, q.2 = some x := fun q hq => by
      obtain ⟨x, hx, _⟩ := hall q (by rw [hpo]; simp [hq])
      exact ⟨x, hx⟩
    clear hpo hd hps
    cases hq : pushesOf n a with
    | nil => simp
    | cons q qs =>
      rw [hq] at hall'
      have : ((qs ++ [(sh, some data)]).filterMap (·.2)).length = (qs ++ [(sh, some data)]).length := by
        have h2 : ∀ q ∈ qs ++ [(sh, some data)], ∃ x, q.2 = some x := by
          intro q hq
          rcases List.mem_append.1 hq with h | h
          · exact hall' q (by simp [h])
          · rw [List.mem_singleton.1 h]; exact ⟨data, rfl⟩
        clear hall' hq
        generalize qs ++ [(sh, some data)] = l at h2
        induction l with
        | nil => rfl
        | cons y l ih =>
          obtain ⟨x, hx⟩ := h2 y (by simp)
          rw [List.filterMap_cons, hx]
          simpa using ih fun q hq => h2 q (by simp [hq])
      simpa using this
  obtain ⟨⟨c0, hc0, hcd⟩, _⟩ := G.run.hist.cinv.push n sh (some data) r hp
  obtain ⟨_, hcr, _⟩ := G.run.hist.cinv.chunk r c0 hc0
  rw [show r = ⟨s0.ptr, r.chunk⟩ by rw [hsp], chunkAt_of_mem (hI.ptrs_nodup h0) hs0] at hc0
  obtain ⟨c', hc', hfate⟩ := hch r.chunk c0 hc0
  have hstart : ((s0.chunks.take r.chunk).map (·.data.length)).sum = startOf n a := by
    unfold startOf
    rw [show (fun c : Chunk => c.data.length) = (fun d : Bytes => d.length) ∘ (·.data) from rfl, ← List.map_map, List.map_take, hd', hk, hpo]
    simp [Function.comp_def]
  have hlens : ∀ {c0 c' : Chunk} {x}, ChunkFate w w' g.sh.sh_addr pl.sh.sh_addr x c0 c' → c'.data.length = c0.data.length := by
    rintro c0 c' x ⟨c, h1, _, _, h4⟩
    rw [(applyRelocations_ok h4).2, h1]
  have htl : t.chunks.map (·.data.length) = s0.chunks.map (·.data.length) := by
    apply List.ext_getElem?
    intro k
    rw [List.getElem?_map, List.getElem?_map]
    cases hx : s0.chunks[k]? with
    | none =>
      rw [List.getElem?_eq_none_iff] at hx
      rw [List.getElem?_eq_none_iff.2 (by omega)]
    | some x =>
      obtain ⟨c', hc', hfate⟩ := hch k x hx
      rw [hc', Option.map_some, Option.map_some, hlens hfate]
  rw [hstart] at hfate
  have hcd := hcd data rfl
  have hts : ((t.chunks.take r.chunk).map fun c => c.data.length).sum = startOf n a := by
    rw [← hstart, List.map_take, htl, List.map_take]
  have hsl := slice_flatMap (f := fun c : Chunk => c.data) hc'
  rw [hts, hlens hfate, hcd] at hsl
  refine ⟨t, ht, htp, hsn, (G.run.reads G.good G.names G.fit).body t ht, c0, c', hcd, hcr, hfate, ?_, hsl⟩
  have hl2 : (slice (contents t) (startOf n a) data.length).length = data.length := by
    show (slice (t.chunks.flatMap _) _ _).length = _
    rw [hsl, hlens hfate, hcd]
  rw [slice, List.length_take, List.length_drop] at hl2
  by_cases hd0 : data.length = 0
  · rw [hd0]
    rw [← hts, contents, List.length_flatMap, Nat.add_zero]
    have := congrArg (fun l => (l.map fun c : Chunk => c.data.length).sum) (List.take_append_drop r.chunk t.chunks)
    simp only [List.map_append, List.sum_append] at this
    omega
  · omega

end Dld
