import Verif.Lemmas.Pushes
import Verif.Props.Reloc
/-! # C50: the contents of merged sections -/
namespace Dld
open Writer Spec
variable {opts : Options} {ops a b : List Op} {sched : Sched} {w w' : Writer} {file : Bytes} {secs : List Section}

theorem relType_eq (rel : Rela) : r_type rel.r_info = relType rel := rfl

/-- the bytes a relocation changes are among those it may change -/
theorem patchRegion_may {rel : Rela} {symbol : Symbol} {i : Nat} (h : ¬ MayPatch rel i) :
    i < (patchRegion rel symbol).1 ∨ (patchRegion rel symbol).1 + (patchRegion rel symbol).2 ≤ i := by
  unfold MayPatch patchBack patchWidth at h
  unfold patchRegion
  simp only [relType_eq, R_X86_64_NONE, R_X86_64_64, R_X86_64_GOTPCRELX, R_X86_64_REX_GOTPCRELX]
  by_cases h0 : relType rel = 0
  · simp [h0]
  · by_cases h1 : relType rel = 1
    · simp only [h1] at h ⊢; simp at h ⊢; omega
    · by_cases h41 : relType rel = 41
      · simp only [h41] at h ⊢; simp at h ⊢; split <;> simp <;> omega
      · by_cases h42 : relType rel = 42
        · simp only [h42] at h ⊢; simp at h ⊢; split <;> simp <;> omega
        · simp only [h0, h1, h41, h42, if_false, false_and] at h ⊢
          omega

/-- bytes that no relocation may change stay -/
theorem applyRelocations_keeps {c c' : Chunk} {got plt : Nat} {t dt : SymbolTable} (h : c.applyRelocations got plt t dt = .ok c') {i : Nat}
    (hi : ∀ e ∈ c.relocations, ¬ MayPatch e.1 i) : c'.data[i]? = c.data[i]? := by
  unfold Chunk.applyRelocations at h
  rw [bind_ok] at h
  obtain ⟨data, h, h2⟩ := h
  cases h2
  simp only
  generalize c.data = d0 at h ⊢
  generalize c.relocations = l at h hi
  induction l generalizing d0 with
  | nil => cases h; rfl
  | cons e l ih =>
    rw [foldM'_cons, bind_ok] at h
    obtain ⟨d1, h1, h2⟩ := h
    simp only [bind_ok, unwrap_ok] at h1
    obtain ⟨_, _, symbol, _, h1⟩ := h1
    rw [ih d1 h2 fun e he => hi e (by simp [he])]
    exact (C30_only_own_field h1).2 i (patchRegion_may (hi e (by simp)))

theorem mayPatch_scanned {t : SymbolTable} {e : Rela × SymbolRef} {i : Nat} : MayPatch (scannedReloc t e).1 i ↔ MayPatch e.1 i := by
  unfold scannedReloc
  split
  · next h =>
    have h4 : relType e.1 = 4 := h.1
    have h2 : relType { e.1 with r_info := e.1.r_info / 2 ^ 32 * 2 ^ 32 + 2 } = 2 := by
      show (e.1.r_info / 2 ^ 32 * 2 ^ 32 + 2) % 2 ^ 32 = 2
      omega
    unfold MayPatch patchBack patchWidth
    rw [h2, h4]
    simp
  · rfl

theorem foldl_max (l : List (SectionHeader × Option Bytes)) (x : Nat) :
    (l.map (·.1.sh_addralign)).foldl max x = l.foldl (fun a p => max a p.1.sh_addralign) x := by
  rw [List.foldl_map]

/-- **C50, what holds.** The pushes of a name that is not one of the writer's own end up in one section of the output. Its size is the sum of their
sizes, its alignment the largest of theirs. Its contents are the data of the pushes, each starting where the one before ends: a byte of the
output section is the byte that was pushed, unless a relocation of the same push may change it. What is missing: sections pushed under the names
`.hash`, `.gnu.hash` and `.copyrel` go to a section of another name (`C50_merged_violated`). -/
theorem C50_merged_partial (G : GoodRun opts ops sched w w' file secs) {n : Name} (hn : n ≠ []) {sh : SectionHeader} {d : Option Bytes} {r : SectionRef}
    (hp : Op.push n sh d r ∈ ops) : ∃ e, sectionsNamed file n = [e] ∧
      e.size = ((pushesOf n ops).map (·.1.sh_size)).sum ∧ e.addralign = maxAlign (pushesOf n ops) ∧
      (bodyOf file e).length = startOf n ops ∧
      ∀ a sh data r b, ops = a ++ Op.push n sh (some data) r :: b →
        ∀ i < data.length, (∀ rel y path, Op.reloc rel y r path ∈ ops → ¬ MayPatch rel i) → (bodyOf file e)[startOf n a + i]? = data[i]? := by
  have hf := G.good.clean.foreign hp hn opts.hashStyle
  obtain ⟨t, ht, htp, hsn⟩ := G.push_section hp
  have hbase : ∀ p ∈ [P.got, P.plt], p ∈ (baseIdents opts.hashStyle).map (·.1) := by cases opts.hashStyle <;> decide
  obtain ⟨g, hg, pg, _⟩ := G.own (hbase P.got (by simp))
  obtain ⟨pl, hpl, ppl, _⟩ := G.own (hbase P.plt (by simp))
  obtain ⟨s, hs, hsp, hfirst, p, ps, hps, hsz, hal, hty, _, hd⟩ := G.run.hist.pushed_section hp hf
  obtain ⟨s0, hs0, hs0p, hlen, ⟨_, e2, e3, e4⟩, hch⟩ := G.run.pushed G.good.flags G.names ht (by rw [htp, ← hsp]; exact hfirst) hg pg hpl ppl
  obtain ⟨w0, pn, h0, hI⟩ := G.run.hist.winv
  have hss : s0 = s := eq_of_ptr (hI.ptrs_nodup h0) hs0 hs (by rw [hs0p, htp, hsp])
  subst hss
  have hbody := (G.run.reads G.good G.names G.fit).body t ht
  refine ⟨t.sh.toSpec, hsn, ?_, ?_, ?_, ?_⟩
  · show t.sh.sh_size = _
    rw [← e3, hsz]
  · show t.sh.sh_addralign = _
    rw [← e4, hal, hps, maxAlign, foldl_max, List.foldl_cons]
    simp
  · obtain ⟨i, hi⟩ := List.getElem?_of_mem ht
    rw [hbody, G.run.contents_length G.good.clean hi]
    unfold Section.sizeOnDisk startOf
    have hm : p ∈ pushesOf n ops := by rw [hps]; simp
    obtain ⟨r1, hr1⟩ := mem_pushesOf hm
    split
    · next hnb =>
      rw [← e2, hty] at hnb
      have hsome : p.2.isSome := by
        cases h2 : p.2 with
        | some x => rfl
        | none => exact absurd ((G.good.clean.nobits n p.1 p.2 r1 hn hr1).2 h2) hnb
      have := G.good.clean.datas hr1 hn hsome
      rw [← e3, hsz]
      congr 1
      refine List.map_congr_left fun q hq => ?_
      obtain ⟨x, hx, hl⟩ := this q hq
      rw [hx, ← hl]; rfl
    · next hnb =>
      rw [← e2, hty] at hnb
      have hnb : p.1.sh_type = SHT_NOBITS := Classical.byContradiction fun h => hnb h
      have hz : ∀ q ∈ pushesOf n ops, (q.2.getD []).length = 0 := by
        intro q hq
        obtain ⟨r2, hr2⟩ := mem_pushesOf hq
        rw [(G.good.clean.nobits n q.1 q.2 r2 hn hr2).1 ((G.good.clean.same _ _ _ _ _ _ _ hr1 hr2).1 hnb)]
        rfl
      rw [List.map_congr_left hz]
      induction pushesOf n ops with
      | nil => rfl
      | cons q l ih => simpa using ih
  · intro a sh data r b e i hi hrel
    obtain ⟨t', ht', _, hsn', hbody', c0, c', h1, h2, ⟨c, h3, h4, _, h5⟩, h6, h7⟩ := G.push_fate e hn hg pg hpl ppl
    have hee : t'.sh.toSpec = t.sh.toSpec := by rw [hsn'] at hsn; simpa using hsn
    rw [← hee, hbody']
    have h8 : (slice (contents t') (startOf n a) data.length)[i]? = (contents t')[startOf n a + i]? := by
      unfold slice
      rw [List.getElem?_take_of_lt hi, List.getElem?_drop]
    rw [← h8, h7, applyRelocations_keeps h5, h3, h1]
    intro x hx
    rw [h4, h2, List.mem_map] at hx
    obtain ⟨y, hy, rfl⟩ := hx
    rw [mayPatch_scanned]
    obtain ⟨path, hop⟩ := mem_relocsAt.1 hy
    exact hrel y.1 y.2 path hop

/-- the pushed section `.text` of the demo link: 24 bytes from two pushes, aligned to 16; the second starts at 16 and has its last byte unchanged -/
example : ∃ w w' f s, GoodRun Options.default demoOps Sched.rev w w' f s ∧
    (match sectionsNamed f b!".text" with
      | [e] => e.size == 24 && e.addralign == 16 && (bodyOf f e)[16 + 7]? == some 0xcc
      | _ => false) = true :=
  GoodRun.of_runs Sched.rev_valid demo_good (by decide +kernel)

/-- an object with a section under one of the names the writer uses itself -/
def ownNameOps (n : Name) (p : Nat) : List Op :=
  [ .push [] {} (some []) ⟨0, 0⟩,
    .push b!".text" (demoSh SHT_PROGBITS 6 16 16) (some (List.replicate 16 0x90)) ⟨16, 0⟩,
    .push n (demoSh SHT_PROGBITS 2 4 4) (some [0xde, 0xad, 0xbe, 0xef]) ⟨p, 0⟩,
    .sym (demoSym STT_FUNC 1 0 12) (some ⟨16, 0⟩) b!"_start" demoPath (.named 1) ]

/-- **C50 is violated**: an object with a non-empty section named `.hash`, `.gnu.hash` or `.copyrel` links without an error, but the push goes
to the section of a different name (`.copyrel`, `.hash` and `.gnu.hash`: identity 13, 14 and 15), and in the resulting file the section headers cannot
be found any more: no section has that name. -/
theorem C50_merged_violated : ∀ n p, (n, p) ∈ [(b!".hash", P.copyRel), (b!".gnu.hash", P.hash), (b!".copyrel", P.gnuHash)] →
    ∃ sh w w' f s, Run Options.default (ownNameOps n p) Sched.id w w' f s ∧
      Op.push n sh (some [0xde, 0xad, 0xbe, 0xef]) ⟨p, 0⟩ ∈ ownNameOps n p ∧ sectionsNamed f n = [] := by
  have key : ∀ n p, runs Options.default (ownNameOps n p) Sched.id (fun _ _ f _ => sectionsNamed f n == []) = true →
      ∃ sh w w' f s, Run Options.default (ownNameOps n p) Sched.id w w' f s ∧
        Op.push n sh (some [0xde, 0xad, 0xbe, 0xef]) ⟨p, 0⟩ ∈ ownNameOps n p ∧ sectionsNamed f n = [] := by
    intro n p h
    obtain ⟨w, w', f, s, hr, hf⟩ := Run.of_runs Sched.id_valid h
    exact ⟨demoSh SHT_PROGBITS 2 4 4, w, w', f, s, hr, by simp [ownNameOps], by simpa using hf⟩
  intro n p hm
  simp only [List.mem_cons, List.not_mem_nil, or_false, Prod.mk.injEq] at hm
  rcases hm with ⟨rfl, rfl⟩ | ⟨rfl, rfl⟩ | ⟨rfl, rfl⟩ <;> exact key _ _ (by decide +kernel)

/-- **C50, sections without relocations.** If no relocation belongs to a push of the name, the section is the concatenation of the pushed data. -/
theorem C50_unrelocated_partial (G : GoodRun opts ops sched w w' file secs) {n : Name} (hn : n ≠ []) {sh : SectionHeader} {d : Option Bytes} {r : SectionRef}
    (hp : Op.push n sh d r ∈ ops) (hnr : ∀ sh d r rel y path, Op.push n sh d r ∈ ops → Op.reloc rel y r path ∉ ops) :
    bodyNamed file n = (pushesOf n ops).flatMap fun p => p.2.getD [] := by
  obtain ⟨e, he, _, _, hlen, hb⟩ := C50_merged_partial G hn hp
  rw [bodyNamed, sectionNamed, he]
  simp only
  have main : ∀ (b a : List Op), ops = a ++ b → (bodyOf file e).drop (startOf n a) = (pushesOf n b).flatMap fun p => p.2.getD [] := by
    intro b
    induction b with
    | nil =>
      intro a e'
      simp only [List.append_nil] at e'
      subst e'
      rw [← hlen]
      simp [pushesOf]
    | cons op b ih =>
      intro a e'
      have h1 := ih (a ++ [op]) (by rw [e']; simp)
      by_cases hop : ∃ sh x r, op = .push n sh (some x) r
      · obtain ⟨sh', x, r', rfl⟩ := hop
        have h2 := hb a sh' x r' b e'
        have h3 : startOf n (a ++ [Op.push n sh' (some x) r']) = startOf n a + x.length := by
          simp [startOf, pushesOf_append, pushesOf]
        rw [h3] at h1
        simp only [pushesOf, if_true, List.flatMap_cons, Option.getD_some]
        rw [← h1]
        apply List.ext_getElem?
        intro i
        rw [List.getElem?_drop]
        by_cases hi : i < x.length
        · rw [List.getElem?_append_left hi]
          exact h2 i hi fun rel y path hm => absurd hm (hnr sh' (some x) r' rel y path (by rw [e']; simp))
        · rw [List.getElem?_append_right (by omega), List.getElem?_drop]
          congr 1; omega
      · have h3 : (pushesOf n [op]).flatMap (fun p => p.2.getD []) = [] := by
          cases op with
          | push m sh' d' r' =>
            by_cases hm : m = n
            · subst hm
              cases d' with
              | none => simp [pushesOf]
              | some x => exact absurd ⟨sh', x, r', rfl⟩ hop
            · simp [pushesOf, hm]
          | _ => rfl
        have h4 : startOf n (a ++ [op]) = startOf n a := by
          rw [startOf, pushesOf_append, List.map_append, List.sum_append]
          have := congrArg List.length h3
          rw [List.length_flatMap] at this
          show _ + (List.map _ (pushesOf n [op])).sum = _
          rw [this]; rfl
        rw [h4] at h1
        rw [h1, show op :: b = [op] ++ b from rfl, pushesOf_append, List.flatMap_append, h3]
        rfl
  have := main ops [] rfl
  simpa [startOf, pushesOf] using this

/-- the comment section of the demo link has no relocations -/
example : ∃ w w' f s, GoodRun Options.default demoOps Sched.rev w w' f s ∧ (bodyNamed f b!".comment" == [0x47, 0x43, 0x43, 0]) = true :=
  GoodRun.of_runs Sched.rev_valid demo_good (by decide +kernel)

end Dld
