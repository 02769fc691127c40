import Verif.Lemmas.Progress5
/-! # `handle_relocations` succeeds -/
namespace Dld
open Writer Spec StringTable

variable {opts : Options} {ops : List Op} {sched : Sched} {w w' : Writer}

theorem patchPlt_relocs {sched : Sched} {w w' : Writer} (h : w.patchPlt sched = .ok w') :
    w'.sections.map (fun s => s.chunks.map (·.relocations)) = w.sections.map (fun s => s.chunks.map (·.relocations)) := by
  obtain ⟨p, g, pc, gc, pd, gd, _, _, _, _, _, _, rfl⟩ := patchPlt_ok h
  have key : ∀ (d : Bytes) (s : Section), (setChunk0 d s).chunks.map (·.relocations) = s.chunks.map (·.relocations) := by
    intro d s
    simp only [setChunk0]
    apply List.ext_getElem?
    intro j
    simp only [List.getElem?_map, List.getElem?_modify]
    cases hc : s.chunks[j]? with
    | none => rfl
    | some c => by_cases hj : 0 = j <;> simp [hj]
  exact (modSec_map (F := fun s : Section => s.chunks.map (·.relocations)) (f := setChunk0 gd) (fun s _ => key gd s)).trans
    (modSec_map (F := fun s : Section => s.chunks.map (·.relocations)) (f := setChunk0 pd) (fun s _ => key pd s))

/-- relocations are in pushed sections -/
theorem Hist.reloc_ptr (h : Hist opts ops w) (hc : CleanInputs ops) (hr : RefsOk ops) {rel : Rela} {y : SymbolRef} {sr : SectionRef} {path : Path}
    (hm : Op.reloc rel y sr path ∈ ops) : sr.ptr = P.null ∨ P.first ≤ sr.ptr := by
  obtain ⟨n, sh, d, hp⟩ := hr.reloc rel y sr path hm
  by_cases hn : n = []
  · subst hn; exact .inl (h.null_push hp)
  · obtain ⟨s, _, e, h1, _⟩ := h.pushed_section hp (hc.foreign hp hn opts.hashStyle)
    exact .inr (e ▸ h1)

/-- the section at the head is the null section -/
theorem Writer.ETrip.null {st : Early sched w} {i : Nat} {s0 a p : Section} (T : ETrip st i s0 a p) (h : Hist opts ops w) (hi : 0 < i) : s0.ptr ≠ P.null := by
  intro h1
  obtain ⟨w0, pn, h0, hI⟩ := h.winv
  obtain ⟨j, hj, _, hij⟩ := T.src
  obtain ⟨null, rest, e1, e2⟩ := h.secFacts.head
  have hnd := hI.ptrs_nodup h0
  rw [e1] at hj hnd
  cases j with
  | zero => have := hij.1 rfl; omega
  | succ j =>
    rw [List.map_cons, List.nodup_cons] at hnd
    simp only [List.getElem?_cons_succ] at hj
    exact hnd.1 (by rw [e2, ← h1]; exact List.mem_map.2 ⟨s0, List.mem_of_getElem? hj, rfl⟩)

/-- the writer's own sections have no relocations -/
theorem Writer.MTrip.own_relocs {st : Mid sched w} {i : Nat} {s0 a p q u : Section} (T : MTrip st i s0 a p q u) (h : Hist opts ops w)
    (hc : CleanInputs ops) (hr : RefsOk ops) (hi : 0 < i) (hp : ¬ P.first ≤ s0.ptr) : ∀ c ∈ u.chunks, c.relocations = [] := by
  obtain ⟨w0, pn, h0, hI⟩ := h.winv
  have e1 : u.chunks.map (·.relocations) = q.chunks.map (·.relocations) := map_of_map T.named.2 (·.2.2) fun _ => rfl
  have e2 : q.chunks.map (·.relocations) = p.chunks.map (·.relocations) := by
    have h2 := patchPlt_relocs st.hpatch
    rw [show st.entries.sections = st.placed.sections by rw [addDynEntries_rest st.hentries]; rfl] at h2
    obtain ⟨p', hp', e2⟩ := getElem?_of_map h2 T.patched
    rw [T.placed] at hp'
    cases hp'
    exact e2
  have e3 := congrArg (List.map fun x : Bytes × List SymbolRef × List (Rela × SymbolRef) => x.2.2) T.core.2.2.2.2.2
  simp only [List.map_map] at e3
  have ea : a.chunks = s0.chunks.map fun c => { c with relocations := c.relocations.map (Spec.scannedReloc w.symtab) } := by
    obtain ⟨j, hj, hja, _⟩ := T.src
    rw [scan_only_redirects_calls h st.hscan, List.getElem?_map, hj] at hja
    cases hja; rfl
  have hs0 : ∀ c ∈ s0.chunks, c.relocations = [] := by
    intro c hcm
    obtain ⟨k, hk⟩ := List.getElem?_of_mem hcm
    rw [(h.cinv.chunk ⟨s0.ptr, k⟩ c (by rw [chunkAt_of_mem (hI.ptrs_nodup h0) T.mem0]; exact hk)).2.1]
    rw [List.eq_nil_iff_forall_not_mem]
    intro e he
    obtain ⟨path, hm⟩ := mem_relocsAt.1 he
    rcases h.reloc_ptr hc hr hm with h1 | h1
    · exact T.null h hi h1
    · exact hp h1
  intro c hcm
  have hm : c.relocations ∈ u.chunks.map (·.relocations) := List.mem_map.2 ⟨c, hcm, rfl⟩
  rw [e1, e2] at hm
  have hm : c.relocations ∈ p.chunks.map ((fun x : Bytes × List SymbolRef × List (Rela × SymbolRef) => x.2.2) ∘ fun c => (c.data, c.symbols, c.relocations)) := hm
  rw [e3] at hm
  obtain ⟨c', hc', e⟩ := List.mem_map.1 hm
  have e : c'.relocations = c.relocations := e
  rw [← e]
  simp only [Growth.apply, List.mem_append, List.mem_map] at hc'
  rcases hc' with hc' | ⟨d, _, rfl⟩
  · rw [ea] at hc'
    obtain ⟨c0, hc0, rfl⟩ := List.mem_map.1 hc'
    simp only [hs0 c0 hc0, List.map_nil]
  · rfl

/-! ### The relocations of a pushed section -/

/-- the limits on the numbers in the calls -/
structure Within (ops : List Op) (w : Writer) (V K : Nat) : Prop where
  values : ∀ s sec n path r, Op.sym s sec n path r ∈ ops → s.st_value ≤ V
  addends : ∀ rel y sr path, Op.reloc rel y sr path ∈ ops → -(V : Int) ≤ rel.r_addend ∧ rel.r_addend ≤ V
  mentions : ∀ r, (ops.filter (Op.attaches r)).length ≤ K
  small : 4 * (V + (K + 5) * w.span) < 2 ^ 31

theorem Writer.Mid.reloc_ok {st : Mid sched w} (F : MidFacts st) (hv : sched.Valid) (h : Hist opts ops w) (hf : FlagsOk ops) (hc : CleanInputs ops) (hr : RefsOk ops)
    (hn : NamesFit w) (hd : NamedDyns ops) (hcl : SymsClean ops) (hds : w.dynstr.totalLen < 2 ^ 32) (hl : w.dynsym.symbols.length < 2 ^ 32)
    (hsy : RelocSyms ops) {V K : Nat} (hW : Within ops w V K) (f : Section → Bool) {rel : Rela} {y : SymbolRef} {sr : SectionRef} {path : Path}
    (hm : Op.reloc rel y sr path ∈ ops) {data : Bytes} (ha : Applicable w.symtab data rel y) {ca got plt : Nat} (hca : ca + data.length ≤ w.span) (hg : got ≤ w.span) (hp : plt ≤ w.span) :
    ∃ x bst bs, (((st.special.sections.drop 1).filter f).foldl (fun t s => s.patchSymbolValues t) st.special.symtab).get y = some x ∧
      relocPatch ca data (scannedReloc w.symtab (rel, y)).1 x st.special.dynsym got plt = .ok (bst, bs) ∧ bst + bs.length ≤ data.length ∧
      (bs.length = 0 ∨ ((relField rel).1 ≤ bst ∧ bst + bs.length ≤ (relField rel).1 + (relField rel).2)) := by
  obtain ⟨ns, nd, T⟩ := h.tableFacts
  obtain ⟨e, sec, n, p, hsym⟩ := hsy rel y sr path hm
  obtain ⟨s, hs⟩ := Option.isSome_iff_exists.1 (T.inv.sref _ _ _ _ _ hsym).1
  obtain ⟨x0, hx0, d1, d2, d3, d4, d5, d6⟩ := st.toEarly.slots_of hv h hs
  obtain ⟨v, ix, hx, hvb⟩ := F.value hv h hf hc hr hn hl hW.values (hW.mentions y) f hx0
  have hrel : (rel, y) ∈ relocsOf w := (h.mem_relocsOf rel y).2 ⟨sr, path, hm⟩
  have hB := hW.small
  have hK : 5 * w.span ≤ (K + 5) * w.span := Nat.mul_le_mul_right _ (by omega)
  obtain ⟨S, hS, hSb⟩ : ∃ S, symAddr { x0 with sym := { x0.sym with st_value := v, st_shndx := ix } } st.special.dynsym = some S ∧ S ≤ V + (K + 5) * w.span := by
    unfold symAddr
    split
    · rename_i hc
      obtain ⟨d, hd'⟩ := Option.ne_none_iff_exists'.1 hc.2
      have hd' : x0.dynamic = some d := hd'
      obtain ⟨n, _, _, e, path, hdm⟩ := T.inv.link y s d hs (d1 ▸ hd')
      obtain ⟨sd, hsd⟩ := Option.isSome_iff_exists.1 (T.inv.dref _ _ _ _ hdm).1
      obtain ⟨xd, hxd, hb⟩ := st.dyn_value hv h hf hd hcl hds hl hsd
      refine ⟨xd.sym.st_value, ?_, by omega⟩
      simp only [hd', Option.bind_some, hxd, Option.map_some]
    · exact ⟨v, rfl, hvb⟩
  have hroff : rel.r_offset ≤ data.length := by
    have := ha.inside
    unfold relField at this
    repeat' split at this
    all_goals simp only at this
    · omega
    · omega
    · omega
    · omega
    · omega
  obtain ⟨a1, a2⟩ := hW.addends rel y sr path hm
  obtain ⟨bst, bs, h1, h2, h3⟩ := relocPatch_progress (dt := st.special.dynsym) (x := { x0 with sym := { x0.sym with st_value := v, st_shndx := ix } })
    (B := V + (K + 5) * w.span) (got := got) (plt := plt) (ca := ca) ha (rel := (scannedReloc w.symtab (rel, y)).1) (by
      unfold scannedReloc
      split <;> rfl) hs d1 (by show x0.sym.st_info = _; rw [d2]) (fun hu => d5 rel hrel hu) (fun hu hi => d6 rel hrel hu hi) hS
    ⟨hSb, by omega, by omega, by omega, by omega, by omega, fun g hg => by have := d3 g hg; omega, fun i hi => by have := d4 i hi; omega⟩ hB
  exact ⟨_, bst, bs, hx, h1, h2, h3⟩

theorem hasFlag_alloc {f : Nat} (h : f / 2 % 2 = 1) : hasFlag f SHF_ALLOC = true := by
  unfold hasFlag
  rw [beq_iff_eq]
  show u32 f &&& 2 = 2
  have h1 : u32 f / 2 % 2 = 1 := by unfold u32; omega
  generalize u32 f = g at h1
  apply Nat.eq_of_testBit_eq
  intro i
  rw [Nat.testBit_and, show (2 : Nat) = 2 ^ 1 from rfl, Nat.testBit_two_pow]
  by_cases hi : 1 = i
  · subst hi
    rw [Nat.testBit_eq_decide_div_mod_eq]
    simp [h1]
  · simp [hi]

theorem relField_scanned (t : SymbolTable) (e : Rela × SymbolRef) : relField (scannedReloc t e).1 = relField e.1 := by
  by_cases hc : UsesPlt e.1 ∧ ¬ Imported t e.2
  · have h1 : relType e.1 = 4 := hc.1
    have hs : scannedReloc t e = ({ e.1 with r_info := e.1.r_info / 2 ^ 32 * 2 ^ 32 + 2 }, e.2) := by
      unfold scannedReloc
      simp only [if_pos hc]
    have h2 : relType { e.1 with r_info := e.1.r_info / 2 ^ 32 * 2 ^ 32 + 2 } = 2 := by
      unfold relType at h1 ⊢
      simp only
      omega
    rw [hs]
    unfold relField
    rw [h2, h1]
    rfl
  · have hs : scannedReloc t e = e := by
      unfold scannedReloc
      simp only [if_neg hc]
    rw [hs]

/-- `handle_relocations` succeeds -/
theorem Writer.Mid.relocs {st : Mid sched w} (F : MidFacts st) (hv : sched.Valid) (h : Hist opts ops w) (hf : FlagsOk ops) (hc : CleanInputs ops) (hr : RefsOk ops)
    (hn : NamesFit w) (hd : NamedDyns ops) (hcl : SymsClean ops) (hds : w.dynstr.totalLen < 2 ^ 32) (hl : w.dynsym.symbols.length < 2 ^ 32)
    (hsy : RelocSyms ops) {V K : Nat} (hW : Within ops w V K) (hok : RelocsOk ops w) (hld : RelocsLoaded ops) : ∃ x, st.special.handleRelocations = .ok x := by
  obtain ⟨w0, pn, h0, hI⟩ := h.winv
  have hptrs : st.special.sections.map (·.ptr) = st.placed.sections.map (·.ptr) := by
    have h1 := (special_post st.hspecial).1
    have h2 := (patchPlt_post st.hpatch).1
    rw [show st.entries.sections = st.placed.sections by rw [addDynEntries_rest st.hentries]; rfl] at h2
    exact map_of_map (h1.trans h2) (·.1) fun _ => rfl
  have has : ∀ p, p ∈ (baseIdents opts.hashStyle).map (·.1) → ∃ s ∈ st.special.sections, s.ptr = p ∧ st.special.sec p = .ok s := by
    intro p hp
    obtain ⟨s, hs, e⟩ := st.has hv h hp
    exact sec_exists (by rw [hptrs]; exact List.mem_map.2 ⟨s, hs, e⟩)
  obtain ⟨g, hgm, hgp, hg⟩ := has P.got (by cases opts.hashStyle <;> decide)
  obtain ⟨p, hpm, hpp, hp⟩ := has P.plt (by cases opts.hashStyle <;> decide)
  obtain ⟨y, _, _, hy⟩ := has P.sym (by cases opts.hashStyle <;> decide)
  obtain ⟨d, _, _, hdy⟩ := has P.dynsym (by cases opts.hashStyle <;> decide)
  have hga := st.sec_le hv h hf hl hgm (by rw [hgp]; decide)
  have hpa := st.sec_le hv h hf hl hpm (by rw [hpp]; decide)
  have chunk : ∀ u ∈ st.special.sections.drop 1, ∀ c ∈ u.chunks, ∃ c', c.applyRelocations g.sh.sh_addr p.sh.sh_addr
      (((st.special.sections.drop 1).filter (relocatable [y.sh.sh_name, d.sh.sh_name])).foldl (fun t s => s.patchSymbolValues t) st.special.symtab) st.special.dynsym = .ok c' := by
    intro u hu c hcm
    obtain ⟨i, hi⟩ := List.getElem?_of_mem hu
    rw [List.getElem?_drop] at hi
    obtain ⟨s0, a, pl, q, T⟩ := st.trip hv h.secFacts h.untouched hi
    by_cases hfst : P.first ≤ s0.ptr
    · have hqp : q = pl := T.patch.2 (by rw [T.ptr_p]; intro e; rw [e] at hfst; exact absurd hfst (by decide))
        (by rw [T.ptr_p]; intro e; rw [e] at hfst; exact absurd hfst (by decide))
      obtain ⟨k, hk⟩ := List.getElem?_of_mem hcm
      have hb : u.chunks.map chunkBody = pl.chunks.map chunkBody := by rw [T.named.2, hqp]
      obtain ⟨c1, hc1, ec1⟩ := getElem?_of_map hb hk
      obtain ⟨hl1, hsh, hat⟩ := T.pushed hv h hf hfst
      obtain ⟨c0, hc0⟩ : ∃ c0, s0.chunks[k]? = some c0 := by
        have := (List.getElem?_eq_some_iff.1 hc1).1
        exact ⟨_, List.getElem?_eq_getElem (by omega)⟩
      obtain ⟨c1', hc1', q1, _, q3, q4⟩ := hat k c0 hc0
      rw [hc1] at hc1'
      cases hc1'
      have ead : c.address = c1.address := congrArg (·.1) ec1
      have edt : c.data = c0.data := (congrArg (·.2.1) ec1).trans q1
      have erl : c.relocations = c0.relocations.map (scannedReloc w.symtab) := (congrArg (·.2.2) ec1).trans q3
      have hrl0 : c0.relocations = relocsAt ⟨s0.ptr, k⟩ ops :=
        (h.cinv.chunk ⟨s0.ptr, k⟩ c0 (by rw [chunkAt_of_mem (hI.ptrs_nodup h0) T.mem0]; exact hc0)).2.1
      have hcat : w.chunkAt ⟨s0.ptr, k⟩ = some c0 := by rw [chunkAt_of_mem (hI.ptrs_nodup h0) T.mem0]; exact hc0
      -- where the section is
      have home : ∀ e ∈ c0.relocations, pl.alloc = true ∧ Applicable w.symtab c0.data e.1 e.2 := by
        intro e he
        rw [hrl0] at he
        obtain ⟨path, hm⟩ := mem_relocsAt.1 he
        obtain ⟨n, sh, data, hpush, hap⟩ := hok.home _ _ _ _ hm
        have hfl := hld _ _ _ _ _ _ _ hm hpush
        have hn0 : n ≠ [] := by
          rintro rfl
          have : s0.ptr = P.null := h.null_push hpush
          rw [this] at hfst
          exact absurd hfst (by decide)
        obtain ⟨s, hs, es, _, p1, ps, hps, _, _, _, hflags, _⟩ := h.pushed_section hpush (hc.foreign hpush hn0 opts.hashStyle)
        have hss : s = s0 := eq_of_ptr (hI.ptrs_nodup h0) hs T.mem0 es
        obtain ⟨⟨c', hc', hdat⟩, _⟩ := h.cinv.push _ _ _ _ hpush
        rw [hcat] at hc'
        cases hc'
        rw [hdat data rfl]
        refine ⟨?_, hap⟩
        have hp1 : p1 ∈ pushesOf n ops := by rw [hps]; simp
        have hal : p1.1.sh_flags / 2 % 2 = 1 := by
          obtain ⟨r', hr'⟩ := mem_pushesOf hp1
          exact hfl _ _ _ hr'
        unfold Section.alloc
        rw [hsh]
        show hasFlag s0.sh.sh_flags SHF_ALLOC = true
        rw [← hss, hflags]
        exact hasFlag_alloc hal
      have hbound : pl.alloc = true → pl.sh.sh_addr + ((s0.chunks.take k).map (·.data.length)).sum + c0.data.length ≤ w.span := by
        intro hal
        have h1 := (st.addr hv h hf hl T.placed (by omega)).1 hal
        have h2 := (h.pushed_chunks hc T.mem0 hfst).2.1
        have h3 : pl.sh.sh_size = s0.sh.sh_size := by rw [hsh]
        have h4 : ((s0.chunks.take k).map (·.data.length)).sum + c0.data.length ≤ (s0.chunks.map (·.data.length)).sum := by
          have e1 : s0.chunks = s0.chunks.take k ++ c0 :: s0.chunks.drop (k + 1) := by
            obtain ⟨hlt, e⟩ := List.getElem?_eq_some_iff.1 hc0
            rw [← e, List.getElem_cons_drop, List.take_append_drop]
          conv => rhs; rw [e1]
          rw [List.map_append, List.sum_append, List.map_cons, List.sum_cons]
          omega
        omega
      refine applyRelocations_progress (reg := fun e => relField e.1) (addr := pl.sh.sh_addr + ((s0.chunks.take k).map (·.data.length)).sum) ?_ ?_ ?_
      · intro hne
        obtain ⟨e, he⟩ := List.exists_mem_of_ne_nil _ hne
        rw [erl] at he
        obtain ⟨e0, he0, _⟩ := List.mem_map.1 he
        rw [ead, q4, if_pos (home e0 he0).1]
      · intro e he
        rw [erl] at he
        obtain ⟨e0, he0, rfl⟩ := List.mem_map.1 he
        obtain ⟨hal, hap⟩ := home e0 he0
        rw [hrl0] at he0
        obtain ⟨path, hm⟩ := mem_relocsAt.1 he0
        obtain ⟨x, bst, bs, h1, h2, h3, h4⟩ := Writer.Mid.reloc_ok F hv h hf hc hr hn hd hcl hds hl hsy hW (relocatable [y.sh.sh_name, d.sh.sh_name]) hm hap (hbound hal) hga hpa
        rw [relField_scanned, edt]
        have e2 : (scannedReloc w.symtab e0).2 = e0.2 := by unfold scannedReloc; split <;> rfl
        rw [e2]
        exact ⟨x, bst, bs, h1, h2, h3, h4⟩
      · rw [erl, List.pairwise_map, hrl0]
        have := hok.apart ⟨s0.ptr, k⟩
        have e2 : relasIn ⟨s0.ptr, k⟩ ops = (relocsAt ⟨s0.ptr, k⟩ ops).map (·.1) := by
          unfold relasIn relocsAt
          rw [List.map_filterMap]
          congr 1
          funext op
          cases op <;> simp
        rw [e2, List.pairwise_map] at this
        exact this.imp fun hab => by rw [relField_scanned, relField_scanned]; exact hab
    · refine applyRelocations_progress (reg := fun e => relField e.1) (addr := 0) ?_ ?_ ?_
      all_goals rw [T.own_relocs h hc hr (by omega) hfst c hcm]
      · intro h; exact absurd rfl h
      · intro e he; cases he
      · exact List.Pairwise.nil
  have sects : ∀ u ∈ st.special.sections.drop 1, ∃ u', relocSection [y.sh.sh_name, d.sh.sh_name] g.sh.sh_addr p.sh.sh_addr
      (((st.special.sections.drop 1).filter (relocatable [y.sh.sh_name, d.sh.sh_name])).foldl (fun t s => s.patchSymbolValues t) st.special.symtab) st.special.dynsym u = .ok u' := by
    intro u hu
    unfold relocSection
    split
    · obtain ⟨_, cs, hcs, _⟩ := mapAccumM_progress (fun _ : Unit => True) (l := u.chunks) (s := ()) (f := fun (_ : Unit) c => do
          let c ← Chunk.applyRelocations c g.sh.sh_addr p.sh.sh_addr (((st.special.sections.drop 1).filter (relocatable [y.sh.sh_name, d.sh.sh_name])).foldl (fun t s => s.patchSymbolValues t) st.special.symtab) st.special.dynsym
          .ok ((), c)) trivial (fun _ c hcm _ => by
        obtain ⟨c', hc'⟩ := chunk u hu c hcm
        exact ⟨(), c', by rw [hc']; rfl, trivial⟩)
      rw [hcs]
      exact ⟨_, rfl⟩
    · exact ⟨u, rfl⟩
  obtain ⟨_, rest, hrest, _⟩ := mapAccumM_progress (fun _ : Unit => True) (l := st.special.sections.drop 1) (s := ()) (f := fun (_ : Unit) s => do
      let s ← relocSection [y.sh.sh_name, d.sh.sh_name] g.sh.sh_addr p.sh.sh_addr (((st.special.sections.drop 1).filter (relocatable [y.sh.sh_name, d.sh.sh_name])).foldl (fun t s => s.patchSymbolValues t) st.special.symtab) st.special.dynsym s
      .ok ((), s)) trivial (fun _ u hu _ => by
    obtain ⟨u', hu'⟩ := sects u hu
    exact ⟨(), u', by rw [hu']; rfl, trivial⟩)
  refine ⟨{ st.special with symtab := ((st.special.sections.drop 1).filter (relocatable [y.sh.sh_name, d.sh.sh_name])).foldl (fun t s => s.patchSymbolValues t) st.special.symtab, sections := st.special.sections.take 1 ++ rest }, ?_⟩
  · simp only [handleRelocations, bind_ok, Prod.exists]
    refine ⟨g, hg, p, hp, y, hy, d, hdy, (), rest, ?_, rfl⟩
    rw [← hrest]
    congr 1
    funext _ s
    unfold relocSection
    split
    · simp only [bind_assoc']; rfl
    · rfl

end Dld
