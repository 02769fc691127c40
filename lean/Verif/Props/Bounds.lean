import Verif.Lemmas.Bounds
/-! # Properties: the bounds of `.init_array` and `.fini_array` (C56) -/
namespace Dld
open Writer Spec StringTable

variable {opts : Options} {ops : List Op} {sched : Sched} {w w' : Writer} {file : Bytes} {secs : List Section}

theorem GoodLink.notNamed (h : GoodLink opts ops sched w w' file secs) {ns nd : List Name} (T : TableFacts ns nd ops w) {n m : Name} (hn : n ∈ ns)
    (hne : m ≠ n) : NotNamed w.symstr (.named (u32 (nameOff ns n))) m := by
  intro e he hr
  obtain ⟨h1, h2⟩ := Holds.get_some T.symstr he
  rw [h2] at hr
  exact hne (u32_nameOff_inj T.symstr h.symstr h1 hn (SymbolRef.named.inj hr))

/-- the number of chunks before the last push of a section with data -/
theorem Hist.last_push (h : Hist opts ops w) (hc : CleanInputs ops) {a b : List Op} {n : Name} {sh : SectionHeader} {data : Bytes} {r : SectionRef}
    (e : ops = a ++ Op.push n sh (some data) r :: b) (hn : n ≠ []) (hb : pushesOf n b = []) {s0 : Section} (hs0 : s0 ∈ w.sections)
    (hsp0 : s0.ptr = r.ptr) : r.chunk + 1 = s0.chunks.length := by
  have hp : Op.push n sh (some data) r ∈ ops := by rw [e]; simp
  have hf := hc.foreign hp hn opts.hashStyle
  obtain ⟨s, hs, hsp, hfirst, p, ps, hps, _, _, _, _, hd⟩ := h.pushed_section hp hf
  obtain ⟨w0, pn, h0, hI⟩ := h.winv
  obtain rfl : s0 = s := eq_of_ptr (hI.ptrs_nodup h0) hs0 hs (hsp0.trans hsp.symm)
  have hpo : pushesOf n ops = pushesOf n a ++ [(sh, some data)] := by
    rw [e, pushesOf_append]; simp [pushesOf, hb]
  have hl := congrArg List.length hd
  rw [List.length_map, List.length_cons] at hl
  rw [h.push_ref e hf, hl]
  cases hq : pushesOf n a with
  | nil =>
    rw [hq, hps] at hpo
    simp only [List.nil_append, List.cons.injEq] at hpo
    rw [hpo.2]; rfl
  | cons q qs =>
    rw [hq, hps] at hpo
    simp only [List.cons_append, List.cons.injEq] at hpo
    rw [hpo.2]
    rfl

theorem arrayBounds_ne {m S E : Name} (h : (m, S, E) ∈ arrayBounds) :
    m ≠ [] ∧ S ≠ [] ∧ E ≠ [] ∧ S ≠ E ∧ b!"_GLOBAL_OFFSET_TABLE_" ≠ S ∧ b!"_GLOBAL_OFFSET_TABLE_" ≠ E ∧
    ∀ m' S' E', (m', S', E') ∈ arrayBounds → m' ≠ m → (S' ≠ S ∧ E' ≠ S) ∧ S' ≠ E ∧ E' ≠ E := by
  have : ∀ x ∈ arrayBounds, x.1 ≠ [] ∧ x.2.1 ≠ [] ∧ x.2.2 ≠ [] ∧ x.2.1 ≠ x.2.2 ∧ b!"_GLOBAL_OFFSET_TABLE_" ≠ x.2.1 ∧
    b!"_GLOBAL_OFFSET_TABLE_" ≠ x.2.2 ∧ ∀ y ∈ arrayBounds, y.1 ≠ x.1 → (y.2.1 ≠ x.2.1 ∧ y.2.2 ≠ x.2.1) ∧ y.2.1 ≠ x.2.2 ∧ y.2.2 ≠ x.2.2 := by
    decide
  obtain ⟨h1, h2, h3, h4, h5, h6, h7⟩ := this _ h
  exact ⟨h1, h2, h3, h4, h5, h6, fun m' S' E' h' hne => h7 _ h' hne⟩

/-- **C56, what holds.** Let `m` be `.init_array` or `.fini_array`, and let some input have a section of the name. If the start symbol is mentioned,
never attached to a section, and never given a value, it is the address of the output section. If the end symbol is mentioned and never attached to a
section, its value is the end of the output section *plus the offset of the last input section in it*: it is right if there is one input section only
(`a` has no push of `m`, so that `offsetOf m a = 0`).

Missing: the end symbol with several inputs, where the claim is false (`C56_end_violated`). -/
theorem C56_partial (h : GoodLink opts ops sched w w' file secs) {m S E : Name} (hm : (m, S, E) ∈ arrayBounds) {a b : List Op} {sh : SectionHeader}
    {data : Bytes} {sr : SectionRef} (e : ops = a ++ Op.push m sh (some data) sr :: b) (hb : pushesOf m b = []) :
    ∃ o, sectionsNamed file m = [o] ∧
    (∀ s sec, Mention ops s sec S → (∀ s' sec' , Mention ops s' sec' S → s'.st_value = 0 ∧ ∀ sr', ¬ Attached ops s' sec' sr') →
      ∃ y, symbolsNamed file S = [y] ∧ y.value = o.addr ∧ (shdrs file)[y.shndx]? = some o) ∧
    (∀ s sec, Mention ops s sec E → (∀ s' sec' sr', Mention ops s' sec' E → ¬ Attached ops s' sec' sr') →
      ∃ y, symbolsNamed file E = [y] ∧ y.value = o.addr + o.size + offsetOf m a ∧ (shdrs file)[y.shndx]? = some o) := by
  have hp : Op.push m sh (some data) sr ∈ ops := by rw [e]; simp
  obtain ⟨ne1, ne2, ne3, ne4, ne5, ne6, ne7⟩ := arrayBounds_ne hm
  obtain ⟨ns, nd, T⟩ := h.run.hist.tableFacts
  obtain ⟨t, ht, htp, hsn⟩ := h.push_section hp
  refine ⟨t.sh.toSpec, hsn, ?_, ?_⟩
  · intro s sec hmen hall
    obtain ⟨hns, x, s', sec', hx, hm', hxv⟩ := h.merged T ne2 hmen
    obtain ⟨i, t', s0, q, u, x1, y, z, hi, hsn', _, _, hview, hyx, hbs, hz, _, hul, _, hfin⟩ := h.toGoodRun.bound (r := .named (u32 (nameOff ns S))) hm
      (fun m' S' E' h' hne => ⟨h.notNamed T hns (ne7 m' S' E' h' hne).1.1, h.notNamed T hns (ne7 m' S' E' h' hne).1.2⟩)
      (h.notNamed T hns ne5) hp (fun sr hin => Nat.lt_of_not_le fun hf => by
        obtain ⟨s', hm', ha'⟩ := h.noted_attached T hns hin hf
        exact (hall _ _ hm').2 _ ha')
    obtain ⟨en, hen, heo⟩ := Holds.get_mem T.symstr hns
    rw [← heo] at hz hfin hyx hx
    obtain ⟨h1, c, cs, hc, hnotes⟩ := boundSymbols_start hen (by rw [heo]; exact h.notNamed T hns ne4.symm) hz hbs
    obtain ⟨x', hx', hxs⟩ := SymbolTable.view_get_some hview.symm hx
    rw [h1, hyx, hx', Option.map_some] at hfin
    obtain ⟨f, hf, hfs⟩ := Option.map_eq_some_iff.1 hfin
    have hn0 : (u.chunks[0]?.map (noted (.named (u32 en.offset)))) = some [.named (u32 en.offset)] := by
      rw [← List.getElem?_map, hnotes]; rfl
    obtain ⟨c0, hc0, hc0n⟩ := Option.map_eq_some_iff.1 hn0
    rw [notesIn_one hc0 hc0n] at hfs
    · have htt : t.sh.toSpec = t'.sh.toSpec := by rw [hsn] at hsn'; exact List.cons.inj hsn' |>.1
      rw [heo] at hf
      refine ⟨f.sym.toSpec, h.symbol_named T hns hf, ?_, ?_⟩
      · rw [htt]
        show f.sym.st_value = t'.sh.sh_addr
        rw [hfs]
        have : x'.sym.st_value = 0 := by rw [← (hall _ _ hm').1, ← hxv, ← hxs]
        simp [placeAt, this]
      · rw [htt]
        show (shdrs file)[f.sym.st_shndx]? = _
        rw [hfs]
        exact h.shndx hi
    · intro j d hj hne hcon
      have : (u.chunks[j]?.map (noted (.named (u32 en.offset)))) = some [] := by
        have hl : j < u.chunks.length := (List.getElem?_eq_some_iff.1 hj).1
        have hll := congrArg List.length hnotes
        obtain ⟨j, rfl⟩ : ∃ k, j = k + 1 := ⟨j - 1, by omega⟩
        rw [← List.getElem?_map, hnotes, List.getElem?_cons_succ, List.getElem?_map, List.getElem?_eq_getElem (by simp at hll; omega)]
        rfl
      rw [hj, Option.map_some] at this
      have h2 : .named (u32 en.offset) ∈ noted (.named (u32 en.offset)) d := List.mem_filter.2 ⟨hcon, by simp⟩
      rw [Option.some.inj this] at h2
      cases h2
  · intro s sec hmen hall
    obtain ⟨hns, x, s', sec', hx, hm', hxv⟩ := h.merged T ne3 hmen
    obtain ⟨i, t', s0, q, u, x1, y, z, hi, hsn', hs0, hs0p, hview, hyx, hbs, hz, hql, hul, hsz, hfin⟩ := h.toGoodRun.bound (r := .named (u32 (nameOff ns E))) hm
      (fun m' S' E' h' hne => ⟨h.notNamed T hns (ne7 m' S' E' h' hne).2.1, h.notNamed T hns (ne7 m' S' E' h' hne).2.2⟩)
      (h.notNamed T hns ne6) hp (fun sr hin => Nat.lt_of_not_le fun hf => by
        obtain ⟨s', hm', ha'⟩ := h.noted_attached T hns hin hf
        exact hall _ _ _ hm' ha')
    obtain ⟨en, hen, heo⟩ := Holds.get_mem T.symstr hns
    rw [← heo] at hz hfin hyx hx
    obtain ⟨h1, hpos, hnotes⟩ := boundSymbols_stop hen (by rw [heo]; exact h.notNamed T hns ne4) hz hbs
    obtain ⟨x', hx', hxs⟩ := SymbolTable.view_get_some hview.symm hx
    rw [h1, hyx, hx', Option.map_some, Option.map_some] at hfin
    obtain ⟨f, hf, hfs⟩ := Option.map_eq_some_iff.1 hfin
    have hlast := h.run.hist.last_push h.good.clean e ne1 hb hs0 hs0p
    have hqs : q.chunks.length = s0.chunks.length := by simpa using congrArg List.length hql
    have hn0 : (u.chunks[sr.chunk]?.map (noted (.named (u32 en.offset)))) = some [.named (u32 en.offset)] := by
      rw [hnotes, List.getElem?_eq_getElem (by omega), Option.map_some, if_pos (by omega)]
    obtain ⟨c0, hc0, hc0n⟩ := Option.map_eq_some_iff.1 hn0
    rw [notesIn_one hc0 hc0n, List.map_take, hul, ← List.map_take, h.run.hist.push_start h.good.clean e ne1 hs0 hs0p,
      offsetOf_startOf h.good.clean e ne1 (.inl rfl)] at hfs
    · have htt : t.sh.toSpec = t'.sh.toSpec := by rw [hsn] at hsn'; exact List.cons.inj hsn' |>.1
      rw [heo] at hf
      have hsize : q.sizeOnDisk = t'.sh.sh_size := by
        rw [hsz]
        unfold Section.sizeOnDisk
        rw [if_pos]
        rw [show t'.sh.sh_type = t.sh.sh_type from (congrArg (·.type) htt).symm]
        have hbase : ∀ p ∈ [P.got, P.plt], p ∈ (baseIdents opts.hashStyle).map (·.1) := by cases opts.hashStyle <;> decide
        obtain ⟨g, hg, pg, _⟩ := h.toGoodRun.own (hbase P.got (by simp))
        obtain ⟨pl, hpl, ppl, _⟩ := h.toGoodRun.own (hbase P.plt (by simp))
        obtain ⟨s1, hs1, hsp, hfirst, p, ps, hps, _, _, hty, _⟩ := h.run.hist.pushed_section hp (h.good.clean.foreign hp ne1 _)
        obtain ⟨s2, hs2, hs2p, _, ⟨_, e2, _⟩, _⟩ := h.run.pushed h.good.flags h.names ht (by rw [htp, ← hsp]; exact hfirst) hg pg hpl ppl
        obtain ⟨w0, pn, h0, hI⟩ := h.run.hist.winv
        have hss : s1 = s2 := eq_of_ptr (hI.ptrs_nodup h0) hs1 hs2 (by rw [hs2p, htp, hsp])
        rw [← e2, ← hss, hty]
        obtain ⟨r', hr'⟩ := mem_pushesOf (n := m) (ops := ops) (p := p) (by rw [hps]; simp)
        intro hnb
        have := (h.good.clean.nobits _ _ _ _ ne1 hp).1 ((h.good.clean.same _ _ _ _ _ _ _ hr' hp).1 hnb)
        cases this
      refine ⟨f.sym.toSpec, h.symbol_named T hns hf, ?_, ?_⟩
      · rw [htt]
        show f.sym.st_value = t'.sh.sh_addr + t'.sh.sh_size + offsetOf m a
        rw [hfs, ← hsize]
        simp only [List.foldl_cons, List.foldl_nil, placeAt]
        omega
      · rw [htt]
        show (shdrs file)[f.sym.st_shndx]? = _
        rw [hfs]
        exact h.shndx hi
    · intro j d hj hne hcon
      have : (u.chunks[j]?.map (noted (.named (u32 en.offset)))) = some [] := by
        have hl : j < u.chunks.length := (List.getElem?_eq_some_iff.1 hj).1
        have hll := congrArg List.length hul
        simp only [List.length_map] at hll
        rw [hnotes, List.getElem?_eq_getElem (by omega), Option.map_some, if_neg (by omega)]
      rw [hj, Option.map_some] at this
      have h2 : .named (u32 en.offset) ∈ noted (.named (u32 en.offset)) d := List.mem_filter.2 ⟨hcon, by simp⟩
      rw [Option.some.inj this] at h2
      cases h2

/-! ### Concrete links -/

/-- an object with 8 bytes of `.init_array`, that mentions the bounds -/
def initOps : List Op := firstObject ++
  [ .push b!".init_array" (demoSh 14 3 8 8) (some (List.replicate 8 1)) ⟨17, 0⟩,
    .sym (demoSym 0 0 0 0) (some ⟨0, 0⟩) b!"__init_array_start" demoPath (.named 8),
    .sym (demoSym 0 0 0 0) (some ⟨0, 0⟩) b!"__init_array_end" demoPath (.named 27) ]

theorem init_good : goodOps initOps = true ∧ cleanSyms initOps = true := by decide +kernel

/-- one input section of 8 bytes: the hypotheses of `C56_partial` hold, and the bounds are 8 apart -/
example : ∃ w w' f s, GoodLink Options.default initOps Sched.id w w' f s ∧
    initOps = initOps.take 3 ++ .push b!".init_array" (demoSh 14 3 8 8) (some (List.replicate 8 1)) ⟨17, 0⟩ :: initOps.drop 4 ∧
    pushesOf b!".init_array" (initOps.drop 4) = [] ∧ pushesOf b!".init_array" (initOps.take 3) = [] ∧
    (∀ n ∈ [b!"__init_array_start", b!"__init_array_end"], (∃ s sec, Mention initOps s sec n) ∧
      ∀ s sec, Mention initOps s sec n → s.st_value = 0 ∧ ∀ sr, ¬ Attached initOps s sec sr) ∧
    (match sectionsNamed f b!".init_array", symbolsNamed f b!"__init_array_start", symbolsNamed f b!"__init_array_end" with
      | [o], [y], [z] => decide (y.value = o.addr ∧ z.value = o.addr + 8 ∧ o.addr ≠ 0)
      | _, _, _ => false) = true := by
  obtain ⟨w, w', f, s, h, hp⟩ := GoodLink.of_runs (opts := .default) (ops := initOps) (sched := .id)
    (P := fun w w' _ s => match secsNamed w s b!".init_array", symsNamed .id w w' b!"__init_array_start", symsNamed .id w w' b!"__init_array_end" with
      | [o], [y], [z] => decide (y.value = o.addr ∧ z.value = o.addr + 8 ∧ o.addr ≠ 0)
      | _, _, _ => false) Sched.id_valid init_good.1 init_good.2 (by decide +kernel)
  simp only [h.secsNamed_eq, h.symsNamed_eq] at hp
  refine ⟨w, w', f, s, h, by decide +kernel, by decide +kernel, by decide +kernel, ?_, hp⟩
  have key : ∀ n ∈ [b!"__init_array_start", b!"__init_array_end"],
      (initOps.any fun | .sym s _ m _ _ => m == n && s.st_info % 16 != 3 | _ => false) = true ∧
      (initOps.all fun | .sym s sec m _ _ => m != n || (s.st_value == 0 && sec == some ⟨0, 0⟩) | _ => true) = true := by decide +kernel
  intro n hn
  obtain ⟨k1, k2⟩ := key n hn
  refine ⟨?_, ?_⟩
  · obtain ⟨op, hop, k⟩ := List.any_eq_true.1 k1
    split at k
    · next s sec m path r =>
      simp only [Bool.and_eq_true, beq_iff_eq, bne_iff_ne] at k
      obtain ⟨rfl, k⟩ := k
      exact ⟨s, sec, ⟨path, r, hop⟩, k⟩
    · cases k
  · rintro s sec ⟨⟨path, r, hop⟩, _⟩
    have k := List.all_eq_true.1 k2 _ hop
    simp only [bne_self_eq_false, Bool.false_or, Bool.and_eq_true, beq_iff_eq] at k
    refine ⟨k.1, ?_⟩
    rintro sr ⟨rfl, _, hno⟩
    cases k.2
    exact hno {} (some []) (by decide +kernel)

/-- two objects with 8 bytes of `.init_array` each -/
def initOps2 : List Op := initOps ++ [.push b!".init_array" (demoSh 14 3 8 8) (some (List.replicate 8 2)) ⟨17, 1⟩]

theorem init_good2 : goodOps initOps2 = true ∧ cleanSyms initOps2 = true := by decide +kernel

/-- **C56 is violated** for the end symbols: two objects have 8 bytes of `.init_array` each. The output section has 16 bytes, and
`__init_array_end` is 24 bytes after its start: the program runs on behind the array. -/
theorem C56_end_violated : ∃ w w' f s o y z, GoodLink Options.default initOps2 Sched.id w w' f s ∧
    sectionsNamed f b!".init_array" = [o] ∧ symbolsNamed f b!"__init_array_start" = [y] ∧ symbolsNamed f b!"__init_array_end" = [z] ∧
    y.value = o.addr ∧ o.size = 16 ∧ z.value = o.addr + 24 := by
  obtain ⟨w, w', f, s, h, hp⟩ := GoodLink.of_runs (opts := .default) (ops := initOps2) (sched := .id)
    (P := fun w w' _ s => match secsNamed w s b!".init_array", symsNamed .id w w' b!"__init_array_start", symsNamed .id w w' b!"__init_array_end" with
      | [o], [y], [z] => decide (y.value = o.addr ∧ o.size = 16 ∧ z.value = o.addr + 24)
      | _, _, _ => false) Sched.id_valid init_good2.1 init_good2.2 (by decide +kernel)
  simp only [h.secsNamed_eq, h.symsNamed_eq] at hp
  split at hp
  · next o y z ho hy hz => exact ⟨w, w', f, s, o, y, z, h, ho, hy, hz, by simpa using hp⟩
  · cases hp

end Dld
