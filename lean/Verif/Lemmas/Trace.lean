import Verif.Lemmas.Names
/-! # Where the sections of a finished writer come from -/
namespace Dld
open Writer
namespace Writer

/-- what the layout does not touch: identity, header without address and offset, lengths of chunks -/
def frame (s : Section) : Nat × Option Nat × Kind × SectionHeader × List Nat :=
  (s.ptr, s.link, s.kind, { s.sh with sh_addr := 0, sh_offset := 0 }, lens s)

/-- growing on frames -/
def Growth.frame (g : Growth) (tbl : List Bytes) (f : Nat × Option Nat × Kind × SectionHeader × List Nat) :
    Nat × Option Nat × Kind × SectionHeader × List Nat :=
  (f.1, f.2.1, f.2.2.1,
   { f.2.2.2.1 with sh_size := g.size.getD f.2.2.2.1.sh_size, sh_info := g.info.getD f.2.2.2.1.sh_info },
   f.2.2.2.2 ++ g.add.map List.length ++ tbl.map List.length)

variable {sched : Sched} {w : Writer}

theorem core_lens {s t : Section} (h : SameCore s t) : lens t = lens s := by
  have := congrArg (List.map fun p : Bytes × List SymbolRef × List (Rela × SymbolRef) => p.1.length) h.2.2.2.2.2
  simpa [lens, List.map_map, Function.comp_def] using this

theorem core_frame {s t : Section} (h : SameCore s t) : frame t = frame s := by
  have hl := core_lens h
  obtain ⟨h1, h2, h3, h4, h5, _⟩ := h
  unfold frame
  rw [h1, h3, h4, hl, h5]

theorem Early.placed_core (st : Early sched w) (hu : Untouched w) {γ : Type} (F : Section → γ)
    (hF : ∀ s t : Section, SameCore s t → F t = F s) : st.placed.sections.map F = st.sorted.sections.map F := by
  obtain ⟨p1, _⟩ := st.placed_eq hu
  rw [p1, List.map_append]
  conv => rhs; rw [← List.take_append_drop 1 st.sorted.sections, List.map_append]
  congr 1
  unfold finalState
  apply List.ext_getElem?
  intro i
  simp only [List.getElem?_map]
  cases hi : (st.sorted.sections.drop 1)[i]? with
  | none =>
    rw [List.getElem?_eq_none_iff] at hi
    rw [List.getElem?_eq_none (by rw [layoutLoop_length]; exact hi)]
  | some s =>
    obtain ⟨t, ht, hc⟩ := layoutLoop_core _ _ _ i s hi
    rw [ht]; simp [hF s t hc]

/-- the frames of the sections after growing, in the order of the writer -/
def Early.grown (st : Early sched w) (s : Section) : Nat × Option Nat × Kind × SectionHeader × List Nat :=
  (st.growth s.ptr).frame [] (frame s)

theorem Early.dynamic_frame (st : Early sched w) {hs : HashStyle} {ops : List Op} (hk : ∀ s ∈ w.sections, Known hs ops s) :
    st.dynamic.sections.map frame = w.sections.map st.grown := by
  rw [st.presort hk, List.map_map]
  have h1 : st.scanned.sections.map st.grown = w.sections.map st.grown := by
    refine map_of_map (scan_sections st.hscan).1 (fun b => (st.growth b.1).frame []
      (b.1, b.2.2.1, b.2.2.2.1, { b.2.2.2.2.1 with sh_addr := 0, sh_offset := 0 }, b.2.2.2.2.2.map (·.2.1.length))) ?_
    intro s
    simp only [Early.grown, frame, bare, lens, List.map_map]
    rfl
  rw [← h1]
  apply List.map_congr_left
  intro s _
  simp [Early.grown, Growth.frame, frame, Growth.apply, lens]

theorem frame_of_post {s t : Section} (h1 : post s = post t) (h2 : lens s = lens t) : frame s = frame t := by
  obtain ⟨a, b, c, d, e⟩ := post_eq h1
  unfold frame; rw [a, c, d, e, h2]

theorem getElem?_of_map {α β : Type} {F : α → β} {l l' : List α} (h : l'.map F = l.map F) {i : Nat} {a : α} (ha : l'[i]? = some a) :
    ∃ b, l[i]? = some b ∧ F a = F b := by
  have := congrArg (·[i]?) h
  simp only [List.getElem?_map, ha, Option.map_some] at this
  obtain ⟨b, hb, e⟩ := Option.map_eq_some_iff.1 this.symm
  exact ⟨b, hb, e.symm⟩

/-- after the layout only the tables add to the sections -/
theorem Stages.final_frame (st : Stages sched w) (hn : (st.placed.sections.map (·.ptr)).Nodup) :
    st.final.sections.map frame =
      st.placed.sections.map fun s => ({} : Growth).frame (tableData st.relocated st.tables s.ptr) (frame s) := by
  have h1 := addDynEntries_rest st.hentries
  have h2 := patchPlt_post st.hpatch
  have h3 := special_post st.hspecial
  have h4 := handleRelocations_post st.hreloc
  obtain ⟨_, h5, _⟩ := computeTables_ok st.htables
  have h10 := (st.final_post).2.2.2.2.2.2.2.2.2.1
  have e1 : st.entries.sections = st.placed.sections := by rw [h1]; rfl
  have hl2 := patchPlt_lens st.hpatch (by rw [e1]; exact hn)
  have hp : st.relocated.sections.map post = st.placed.sections.map post := by rw [h4.1, h3.1, h2.1, e1]
  have hl : st.relocated.sections.map lens = st.placed.sections.map lens := by
    have : st.special.sections.map lens = st.patched.sections.map lens :=
      map_of_map h3.2.1 (List.map List.length) (fun s => by simp [lens, datas])
    rw [h4.2.1, this, hl2, e1]
  rw [h10, h5, List.map_map]
  apply List.ext_getElem?
  intro i
  simp only [List.getElem?_map]
  cases hi : st.relocated.sections[i]? with
  | none =>
    have : st.relocated.sections.length = st.placed.sections.length := by simpa using congrArg List.length hp
    rw [List.getElem?_eq_none_iff] at hi
    rw [List.getElem?_eq_none (by omega)]; rfl
  | some s =>
    obtain ⟨t, ht, e⟩ := getElem?_of_map hp hi
    obtain ⟨t', ht', e'⟩ := getElem?_of_map hl hi
    rw [ht] at ht'; cases ht'
    rw [ht]
    obtain ⟨a, b, c, d, f⟩ := post_eq e
    simp only [Option.map_some, Function.comp, frame, addChunks, Growth.frame, Option.getD_none, List.map_nil,
      List.append_nil, lens, List.map_append, List.map_map]
    rw [a, c, d, f]
    simp only [lens] at e'
    rw [e']
    rfl

/-- a section of the finished writer, and the section of the writer it comes from -/
structure From (st : Stages sched w) (s0 s : Section) : Prop where
  ptr : s.ptr = s0.ptr
  link : s.link = s0.link
  kind : s.kind = s0.kind
  sh : s.sh = { s0.sh with
    sh_size := (st.growth s0.ptr).size.getD s0.sh.sh_size
    sh_info := (st.growth s0.ptr).info.getD s0.sh.sh_info
    sh_addr := s.sh.sh_addr
    sh_offset := s.sh.sh_offset }
  lens : lens s = Writer.lens s0 ++ (st.growth s0.ptr).add.map List.length ++
    (tableData st.relocated st.tables s0.ptr).map List.length

theorem Early.placed_frames (hv : sched.Valid) (st : Early sched w) {hs : HashStyle} {ops : List Op} (hsf : SecFacts hs ops w)
    (hu : Untouched w) : (st.placed.sections.take 1).map frame = (w.sections.take 1).map st.grown ∧
      ((st.placed.sections.drop 1).map frame).Perm ((w.sections.drop 1).map st.grown) := by
  have h1 := st.placed_core hu frame (fun s t => core_frame)
  obtain ⟨h2, h3⟩ := sortSecs_perm hv st.hsort (F := frame) (fun _ _ => rfl)
  have h4 := st.dynamic_frame hsf.known
  rw [List.map_take, List.map_drop, h1, ← List.map_take, ← List.map_drop, h2]
  refine ⟨?_, h3.trans ?_⟩
  · rw [List.map_take, h4, ← List.map_take]
  · rw [List.map_drop, h4, ← List.map_drop]

theorem Early.placed_nodup (hv : sched.Valid) (st : Early sched w) {hs : HashStyle} {ops : List Op} (hsf : SecFacts hs ops w)
    (hu : Untouched w) : (st.placed.sections.map (·.ptr)).Nodup := by
  obtain ⟨h1, h2⟩ := st.placed_frames hv hsf hu
  have h3 : (st.placed.sections.map frame).Perm (w.sections.map st.grown) := by
    rw [← List.take_append_drop 1 st.placed.sections, ← List.take_append_drop 1 w.sections, List.map_append, List.map_append, h1]
    exact h2.append_left _
  have h4 := h3.map (·.1)
  rw [List.map_map, List.map_map] at h4
  exact h4.nodup_iff.2 hsf.nodup

theorem Stages.from_of_frame {st : Stages sched w} {s0 s : Section} (h : frame s =
    ({} : Growth).frame (tableData st.relocated st.tables s0.ptr) (st.grown s0)) : From st s0 s := by
  simp only [frame, Growth.frame, Early.grown, Prod.mk.injEq, Option.getD_none, List.map_nil, List.append_nil] at h
  obtain ⟨h1, h2, h3, h4, h5⟩ := h
  refine ⟨h1, h2, h3, ?_, h5⟩
  have h6 := congrArg (fun x : SectionHeader => { x with sh_addr := s.sh.sh_addr, sh_offset := s.sh.sh_offset }) h4
  exact h6

/-- every section of the finished writer comes from one of the writer, in the same place if it is the
null section -/
theorem Stages.sources (hv : sched.Valid) (st : Stages sched w) {hs : HashStyle} {ops : List Op} (hsf : SecFacts hs ops w)
    (hu : Untouched w) : (∀ s ∈ st.final.sections, ∃ s0 ∈ w.sections, From st s0 s) ∧
      (∀ s0 ∈ w.sections, ∃ s ∈ st.final.sections, From st s0 s) := by
  have hn := st.placed_nodup hv hsf hu
  obtain ⟨h1, h2⟩ := st.placed_frames hv hsf hu
  have h3 : (st.placed.sections.map frame).Perm (w.sections.map st.grown) := by
    rw [← List.take_append_drop 1 st.placed.sections, ← List.take_append_drop 1 w.sections, List.map_append, List.map_append, h1]
    exact h2.append_left _
  have hf := st.final_frame hn
  constructor
  · intro s hs
    have : frame s ∈ st.final.sections.map frame := List.mem_map_of_mem hs
    rw [hf] at this
    obtain ⟨p, hp, he⟩ := List.mem_map.1 this
    obtain ⟨s0, hs0, he0⟩ := List.mem_map.1 (h3.mem_iff.1 (List.mem_map_of_mem hp))
    have hptr : s0.ptr = p.ptr := congrArg (·.1) he0
    refine ⟨s0, hs0, Stages.from_of_frame ?_⟩
    rw [he0, hptr]; exact he.symm
  · intro s0 hs0
    obtain ⟨p, hp, he0⟩ := List.mem_map.1 (h3.mem_iff.2 (List.mem_map_of_mem hs0))
    have hptr : p.ptr = s0.ptr := congrArg (·.1) he0
    have : ({} : Growth).frame (tableData st.relocated st.tables p.ptr) (frame p) ∈ st.final.sections.map frame := by
      rw [hf]; exact List.mem_map_of_mem (f := fun s => ({} : Growth).frame (tableData st.relocated st.tables s.ptr) (frame s)) hp
    obtain ⟨s, hs, he⟩ := List.mem_map.1 this
    refine ⟨s, hs, Stages.from_of_frame ?_⟩
    rw [he, he0, hptr]

/-- the sections stay in the order of the sort -/
theorem Stages.final_sorted (st : Stages sched w) (hu : Untouched w) :
    (st.final.sections.drop 1).Pairwise fun a b => sectionLe a b = true := by
  have h1 : st.final.sections.map (fun s => (s.sh.sh_flags, s.sh.sh_addralign)) =
      st.sorted.sections.map (fun s => (s.sh.sh_flags, s.sh.sh_addralign)) := by
    rw [map_of_map (G := fun s => (s.sh.sh_flags, s.sh.sh_addralign)) st.final_post.1 (fun p => (p.2.2.2.2.sh_flags, p.2.2.2.2.sh_addralign)) (fun _ => rfl),
      st.placed_core hu _ (fun s t h => by rw [h.flags, h.align])]
  obtain ⟨null, rest, _, _, h3⟩ := sortSecs_ok st.hsort
  have h2 := mapIdx_map_tag (F := fun s => (s.sh.sh_flags, s.sh.sh_addralign)) (fun _ _ => rfl)
    (null :: stableSort sectionLe (sched.secOrder rest))
  rw [← h3] at h2
  have h4 : (st.final.sections.drop 1).map (fun s => (s.sh.sh_flags, s.sh.sh_addralign)) =
      (stableSort sectionLe (sched.secOrder rest)).map (fun s => (s.sh.sh_flags, s.sh.sh_addralign)) := by
    rw [List.map_drop, h1, h2]; rfl
  have h5 := stableSort_pairwise sectionLe_total sectionLe_trans (sched.secOrder rest)
  have key : ∀ l : List Section, (l.Pairwise fun a b => sectionLe a b = true) ↔
      (l.map fun s => (s.sh.sh_flags, s.sh.sh_addralign)).Pairwise fun a b =>
        sectionLe { ptr := 0, sh := { sh_flags := a.1, sh_addralign := a.2 } } { ptr := 0, sh := { sh_flags := b.1, sh_addralign := b.2 } } = true := by
    intro l
    rw [List.pairwise_map]
    rfl
  rw [key, h4, ← key]
  exact h5

end Writer

/-! ### Consequences for complete links -/

theorem Known.copyRel_kind {hs : HashStyle} {ops : List Op} {s : Section} (hk : Known hs ops s) :
    s.kind = .copyRel ↔ s.ptr = P.copyRel := by
  rcases hk with h | ⟨h, h1, _⟩
  · have h := origins_cases h
    simp only [Section.origin, Prod.mk.injEq] at h
    simp only [P.null, P.shstr, P.symstr, P.dynstr, P.interp, P.got, P.gotPlt, P.plt, P.sym, P.dynsym, P.dynamic, P.relaDyn, P.relaPlt,
      P.copyRel, P.hash, P.gnuHash] at h ⊢
    rcases h with h | h | h | h | h | h | h | h | h | h | h | h | h | h | h | h
    all_goals
      obtain ⟨h1, h2, h3, h4, h5, h6⟩ := h
      rw [h1, h3]; simp
  · rw [h1]; simp [P.first, P.copyRel] at h ⊢; omega

/-- the names under which pushes reach the writer's own sections -/
def slots (hs : HashStyle) : List (Nat × Name) := ((baseIdents hs).map (·.1)).zip (tabNames hs)

theorem slots_name (hs : HashStyle) : ∀ e ∈ slots hs, e.1 ≤ 12 → e.2 = ptrName e.1 := by cases hs <;> decide

theorem slots_mem (hs : HashStyle) : ∀ e ∈ slots hs, e.2 ∈ tabNames hs := by
  intro e he; exact (List.of_mem_zip he).2

theorem WInv.own {opts : Options} {w0 w : Writer} {ops : List Op} {pn : List Name}
    (hI : WInv opts w0 ops w pn) (h0 : Writer.new opts = .ok w0) {s : Section} (hs : s ∈ w.sections) (hp : s.ptr < P.first) :
    ∃ b n, b ∈ w0.sections ∧ b.ident ∈ baseIdents opts.hashStyle ∧ (s.ptr, n) ∈ slots opts.hashStyle ∧
      Merged b s (pushesOf n ops) := by
  obtain ⟨i, hi, rfl⟩ := List.getElem_of_mem hs
  by_cases hlt : i < (tabNames opts.hashStyle).length
  · obtain ⟨b, n, m, hb, hn, hm, hname, hid, hM⟩ := hI.base0 h0 hlt (List.getElem?_eq_getElem hi)
    refine ⟨b, n, List.mem_of_getElem? hb, List.mem_of_getElem? hid, ?_, hM⟩
    refine List.mem_of_getElem? (i := i) ?_
    unfold slots
    rw [List.getElem?_zip_eq_some]
    refine ⟨?_, hn⟩
    rw [List.getElem?_map, hid, hM.ptr]; rfl
  · obtain ⟨k, rfl⟩ : ∃ k, i = (tabNames opts.hashStyle).length + k := ⟨i - (tabNames opts.hashStyle).length, by omega⟩
    obtain ⟨n, p, ps, hn, hps, hM⟩ := hI.pushed k _ (List.getElem?_eq_getElem hi)
    rw [hM.ptr] at hp
    simp only [firstSection] at hp; omega

theorem foldl_max_le {ps : List (SectionHeader × Option Bytes)} (a : Nat) :
    a ≤ ps.foldl (fun a p => max a p.1.sh_addralign) a := by
  induction ps generalizing a with
  | nil => exact Nat.le_refl _
  | cons p ps ih => exact Nat.le_trans (Nat.le_max_left _ _) (ih _)

/-- the alignment of the writer's own sections -/
theorem WInv.own_align {opts : Options} {w0 w : Writer} {ops : List Op} {pn : List Name}
    (hI : WInv opts w0 ops w pn) (h0 : Writer.new opts = .ok w0) {s : Section} (hs : s ∈ w.sections) :
    (s.ptr = P.dynsym → 8 ≤ s.sh.sh_addralign) ∧ (s.ptr = P.copyRel → 64 ≤ s.sh.sh_addralign) ∧
    (s.ptr = P.interp → pushesOf b!".interp" ops = [] → s.sh.sh_addralign = 1) ∧
    (s.ptr = P.dynamic → pushesOf b!".dynamic" ops = [] → s.sh.sh_addralign = 8) := by
  by_cases hp : s.ptr < P.first
  · obtain ⟨b, n, _, hid, hsl, hM⟩ := hI.own h0 hs hp
    have hal : ∀ e ∈ baseIdents opts.hashStyle, (e.1 = P.dynsym → e.2.2.2.2.2.2 = 8) ∧ (e.1 = P.copyRel → e.2.2.2.2.2.2 = 64) ∧
        (e.1 = P.interp → e.2.2.2.2.2.2 = 1) ∧ (e.1 = P.dynamic → e.2.2.2.2.2.2 = 8) := by
      cases opts.hashStyle <;> decide
    have hal := hal _ hid
    simp only [Section.ident] at hal
    have hle := foldl_max_le (ps := pushesOf n ops) b.sh.sh_addralign
    have he : s.sh.sh_addralign = (pushesOf n ops).foldl (fun a p => max a p.1.sh_addralign) b.sh.sh_addralign := by
      rw [hM.sh]
    rw [he, hM.ptr]
    have hsn := slots_name _ _ hsl
    simp only at hsn
    refine ⟨fun e => ?_, fun e => ?_, fun e hn => ?_, fun e hn => ?_⟩
    · have := hal.1 e; omega
    · have := hal.2.1 e; omega
    · have : n = b!".interp" := by rw [hsn (by rw [hM.ptr, e]; decide), hM.ptr, e]; rfl
      rw [this, hn]; exact hal.2.2.1 e
    · have : n = b!".dynamic" := by rw [hsn (by rw [hM.ptr, e]; decide), hM.ptr, e]; rfl
      rw [this, hn]; exact hal.2.2.2 e
  · refine ⟨fun e => ?_, fun e => ?_, fun e => ?_, fun e => ?_⟩ <;> exact absurd (by rw [e]; decide) hp

variable {opts : Options} {ops : List Op} {sched : Sched} {w w' : Writer} {file : Bytes} {secs : List Section}

theorem Run.stages (h : Run opts ops sched w w' file secs) : ∃ st : Stages sched w, st.final = w' :=
  computeSections_stages h.compute

/-- `.copyrel` takes no memory in the layout -/
theorem Run.copyRel_empty (h : Run opts ops sched w w' file secs) {s : Section} (hs : s ∈ w'.sections) (hk : s.kind = .copyRel) :
    s.sh.sh_size = 0 := by
  obtain ⟨st, rfl⟩ := h.stages
  have hu := h.hist.untouched
  obtain ⟨s0, hs0, hf⟩ := (st.sources h.valid h.hist.secFacts hu).1 s hs
  have hp : s0.ptr = P.copyRel := (h.hist.secFacts.known s0 hs0).copyRel_kind.1 (by rw [← hf.kind]; exact hk)
  have hsc := (scan_sections st.hscan).2
  have : st.scanned.copyRel = {} := by rw [hsc]; exact hu.copyRel
  rw [hf.sh, hp]
  simp only [Early.growth]
  simp [P.null, P.shstr, P.symstr, P.dynstr, P.interp, P.got, P.gotPlt, P.plt, P.sym, P.dynsym, P.dynamic, P.relaDyn, P.relaPlt,
      P.copyRel, P.hash, P.gnuHash, this, CopyRel.size]

theorem Run.sorted (h : Run opts ops sched w w' file secs) : (w'.sections.drop 1).Pairwise fun a b => sectionLe a b = true := by
  obtain ⟨st, rfl⟩ := h.stages
  exact st.final_sorted h.hist.untouched

end Dld
