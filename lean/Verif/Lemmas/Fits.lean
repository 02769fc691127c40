import Verif.Spec.Numbers
import Verif.Lemmas.Progress8
/-! # The numbers of headers fit their fields -/
namespace Dld
open Writer Spec StringTable

variable {opts : Options} {ops : List Op} {sched : Sched} {w w' : Writer} {F : List Nat} {V K : Nat}

/-! ### Offsets in the file -/

theorem sizeOnDisk_le (s : Section) : s.sizeOnDisk ≤ s.sh.sh_size := by
  unfold Section.sizeOnDisk; split <;> omega

theorem placeSection_offset (st : LayoutState) (s : Section) : (placeSection st s).1.fileOffset + (placeSection st s).1.extra.getD 0 ≤
    st.fileOffset + st.extra.getD 0 + (s.sh.sh_size + 4096) := by
  have := roundTo_le st.fileOffset
  have h1 := sizeOnDisk_le s
  unfold placeSection loadHeader placeInFile
  simp only
  split
  · split
    · have h2 : (s.setAddress (roundTo st.pVaddr PAGE_ALIGNMENT + st.extra.getD 0)).sizeOnDisk = s.sizeOnDisk := rfl
      simp only [Option.getD_none, h2]; omega
    · simp only; omega
  · split
    · simp only; omega
    · simp only; omega

theorem layoutLoop_offset (isInterp : SectionHeader → Bool) (l : List Section) (st : LayoutState) :
    (layoutLoop isInterp st l).1.fileOffset ≤ st.fileOffset + st.extra.getD 0 + (l.map fun s => s.sh.sh_size + 4096).sum := by
  induction l generalizing st with
  | nil => simp [layoutLoop]
  | cons s l ih =>
    simp only [layoutLoop, List.map_cons, List.sum_cons]
    have h1 := ih (layoutStep isInterp st s).1
    have h2 : (layoutStep isInterp st s).1.fileOffset + (layoutStep isInterp st s).1.extra.getD 0 ≤ st.fileOffset + st.extra.getD 0 + (s.sh.sh_size + 4096) := by
      rw [layoutStep_eq]; exact placeSection_offset st s
    omega

/-- the sizes of all sections, and the number of program headers, before they are placed -/
theorem Writer.Early.sorted_sizes (st : Early sched w) (hv : sched.Valid) (h : Hist opts ops w) (hl : w.dynsym.symbols.length < 2 ^ 32) :
    (st.sorted.sections.map (·.sh.sh_size)).sum + 4236 * w.sections.length ≤ w.weight + 512 ∧ st.sorted.sections.length = w.sections.length := by
  obtain ⟨h1, h2⟩ := st.sizes_le hv h hl
  obtain ⟨p1, p2⟩ := sortSecs_perm hv st.hsort (F := fun s => s.sh.sh_size) (fun _ _ => rfl)
  have hsum : (st.sorted.sections.map (·.sh.sh_size)).sum = (st.dynamic.sections.map (·.sh.sh_size)).sum := by
    rw [← List.take_append_drop 1 st.sorted.sections, ← List.take_append_drop 1 st.dynamic.sections, List.map_append, List.map_append, p1]
    exact (p2.append_left _).sum_nat
  have hlen : st.sorted.sections.length = w.sections.length := by
    rw [← h2, ← List.take_append_drop 1 st.sorted.sections, ← List.take_append_drop 1 st.dynamic.sections, List.length_append, List.length_append]
    have a := congrArg List.length p1
    have b := p2.length_eq
    simp only [List.length_map] at a b
    rw [a, b]
  exact ⟨by omega, hlen⟩

/-- the size of the output up to the section headers is bounded by the weight of the input -/
theorem Writer.Early.fileOffset_le (st : Early sched w) (hv : sched.Valid) (h : Hist opts ops w) (hl : w.dynsym.symbols.length < 2 ^ 32) :
    st.placed.fileOffset ≤ w.weight + 1024 := by
  obtain ⟨h1, hlen⟩ := st.sorted_sizes hv h hl
  rw [(st.placed_eq h.untouched).2.2.1]
  have hc : countProgramHeaders st.sorted.sections ≤ w.sections.length + 3 := by
    unfold countProgramHeaders
    have := countLoads_le 0 (st.sorted.sections.drop 1)
    rw [List.length_drop] at this
    omega
  have hdrop : ((st.sorted.sections.drop 1).map fun s => s.sh.sh_size + 4096).sum ≤ (st.sorted.sections.map (·.sh.sh_size)).sum + 4096 * w.sections.length := by
    rw [sum_map_add, sum_map_const, List.length_drop, hlen]
    have : (st.sorted.sections.map (·.sh.sh_size)).sum = ((st.sorted.sections.take 1).map (·.sh.sh_size)).sum + ((st.sorted.sections.drop 1).map (·.sh.sh_size)).sum := by
      rw [← List.sum_append, ← List.map_append, List.take_append_drop]
    omega
  have hb := layoutLoop_offset (fun sh => w.shstr.name sh.sh_name == some b!".interp") (st.sorted.sections.drop 1)
    { fileOffset := 0, pVaddr := 0x200000, extra := some (countProgramHeaders st.sorted.sections * sizeofProgramHeader + sizeofHeader), flags := 0, cur := none, phs := [] }
  have : (finalState (fun sh => w.shstr.name sh.sh_name == some b!".interp") sizeofProgramHeader 0x200000 st.sorted.sections).1.fileOffset ≤
      0 + (countProgramHeaders st.sorted.sections * 56 + 64) + ((st.sorted.sections.drop 1).map fun s => s.sh.sh_size + 4096).sum := hb
  omega

theorem Writer.Early.size_le (st : Early sched w) (hv : sched.Valid) (h : Hist opts ops w) (hl : w.dynsym.symbols.length < 2 ^ 32)
    {p : Section} (hp : p ∈ st.placed.sections) : p.sh.sh_size ≤ w.weight + 512 := by
  have h1 := st.placed_core h.untouched (fun s => s.sh.sh_size) (fun s t hst => by
    show t.sh.sh_size = s.sh.sh_size
    rw [hst.2.2.2.2.1])
  have h2 := (st.sorted_sizes hv h hl).1
  rw [← h1] at h2
  have := le_sum_of_mem (List.mem_map.2 ⟨p, hp, rfl⟩ : p.sh.sh_size ∈ st.placed.sections.map fun s => s.sh.sh_size)
  omega

/-! ### The headers of the sections of the writer -/

/-- the fields of a section header that the layout does not compute, and the ones it computes before it ran -/
structure SectionHeader.Static (sh : SectionHeader) : Prop where
  name : sh.sh_name < 256 ^ 4
  type : sh.sh_type < 256 ^ 4
  flags : sh.sh_flags < 256 ^ 8
  addr : sh.sh_addr = 0
  offset : sh.sh_offset = 0
  link : sh.sh_link < 256 ^ 4
  info : sh.sh_info < 256 ^ 4
  addralign : sh.sh_addralign < 256 ^ 8
  entsize : sh.sh_entsize < 256 ^ 8

theorem u32_lt (n : Nat) : u32 n < 256 ^ 4 := Nat.mod_lt _ (by decide)

theorem foldl_max_lt {α : Type} {f : α → Nat} {B : Nat} : ∀ {l : List α} {a : Nat}, a < B → (∀ x ∈ l, f x < B) → l.foldl (fun a x => max a (f x)) a < B
  | [], _, h, _ => h
  | x :: l, a, h, hl => by
    rw [List.foldl_cons]
    have := hl x (by simp)
    exact foldl_max_lt (by omega) fun y hy => hl y (by simp [hy])

theorem static_of (n ty fl sz al en : Nat) (h1 : ty < 256 ^ 4) (h2 : fl < 256 ^ 8) (h3 : al < 256 ^ 8) (h4 : en < 256 ^ 8) :
    SectionHeader.Static { sh_name := u32 n, sh_type := ty, sh_flags := fl, sh_size := sz, sh_addralign := al, sh_entsize := en } :=
  ⟨u32_lt _, h1, h2, rfl, rfl, (by decide : 0 < 256 ^ 4), (by decide : 0 < 256 ^ 4), h3, h4⟩

theorem new_static {w0 : Writer} (h : Writer.new opts = .ok w0) : ∀ s ∈ w0.sections, s.sh.Static := by
  simp only [Writer.new, bind_ok] at h
  obtain ⟨f, hf, h⟩ := h
  have h := Except.ok.inj h
  intro s hs
  rw [← h] at hs
  simp only [List.mem_append, List.mem_cons, List.not_mem_nil, or_false, or_assoc] at hs
  rcases hs with hs | hs | hs | hs | hs | hs | hs | hs | hs | hs | hs | hs | hs | hs | hs | hs
  case inl => rw [hs]; constructor <;> decide
  all_goals first
    | (rw [hs]; exact static_of _ _ _ _ _ _ (by decide) (by decide) (by decide) (by decide))
    | (split at hs
       · simp only [List.mem_cons, List.not_mem_nil, or_false] at hs
         rw [hs]
         exact static_of _ _ _ _ _ _ (by decide) (by decide) (by decide) (by decide)
       · cases hs)

theorem Hist.static (h : Hist opts ops w) (hF : FieldsFit ops) : ∀ s ∈ w.sections, s.sh.Static := by
  obtain ⟨w0, pn, h0, hI⟩ := h.winv
  intro s hs
  obtain ⟨i, hi⟩ := List.getElem?_of_mem hs
  have hps : ∀ n, ∀ p ∈ pushesOf n ops, p.1.Fits := by
    intro n p hp
    obtain ⟨r, hr⟩ := mem_pushesOf hp
    exact hF.sections _ _ _ _ hr
  by_cases hlt : i < (tabNames opts.hashStyle).length
  · obtain ⟨b, n, hb, _, hm⟩ := hI.base i s hlt hi
    have hb := new_static h0 b (List.mem_of_getElem? hb)
    rw [hm.sh]
    exact ⟨hb.name, hb.type, hb.flags, hb.addr, hb.offset, hb.link, hb.info, foldl_max_lt hb.addralign fun p hp => (hps n p hp).addralign, hb.entsize⟩
  · obtain ⟨n, p, ps, hn, hp, hm⟩ := hI.pushed (i - (tabNames opts.hashStyle).length) s (by rw [Nat.add_sub_cancel' (by omega)]; exact hi)
    have h1 := hps n p (by rw [hp]; simp)
    rw [hm.sh]
    exact ⟨u32_lt _, h1.type, h1.flags, rfl, rfl, h1.link, h1.info, foldl_max_lt h1.addralign fun q hq => (hps n q (by rw [hp]; simp [hq])).addralign, h1.entsize⟩

/-! ### The section headers of the output -/

theorem finalizeSec_linkFits {s t : Section} (h : finalizeSec sched w s = .ok t) : t.sh.sh_link = s.sh.sh_link ∨ t.sh.sh_link < 256 ^ 4 := by
  have tail : ∀ u : Section, (match u.link with
      | none => .ok u
      | some p => do
        let l ← w.sec p
        .ok { u with sh := { u.sh with sh_link := u32 l.index } }) = (.ok t : M Section) → u.sh.sh_link = s.sh.sh_link →
      t.sh.sh_link = s.sh.sh_link ∨ t.sh.sh_link < 256 ^ 4 := by
    intro u h hu
    cases hl : u.link with
    | none => rw [hl] at h; cases h; exact .inl hu
    | some p =>
      rw [hl] at h
      simp only [bind_ok] at h
      obtain ⟨l, _, h⟩ := h
      cases h; exact .inr (u32_lt _)
  unfold finalizeSec at h
  cases hk : s.kind with
  | symtab =>
    simp only [hk] at h
    rw [bind_ok] at h
    obtain ⟨u, h1, h2⟩ := h
    obtain ⟨_, rfl⟩ := modifyChunk_ok h1
    exact tail _ h2 rfl
  | dynsym =>
    simp only [hk] at h
    rw [bind_ok] at h
    obtain ⟨u, h1, h2⟩ := h
    obtain ⟨_, rfl⟩ := modifyChunk_ok h1
    exact tail _ h2 rfl
  | copyRel =>
    simp only [hk] at h
    exact tail (setSize w.copyRel.size s) h rfl
  | _ =>
    simp only [hk] at h
    exact tail s h rfl

theorem Writer.Early.placed_info (st : Early sched w) (ptr : Nat) : ∀ i ∈ (st.growth ptr).info, i < 256 ^ 4 := by
  intro i hi
  have hi : (st.growth ptr).info = some i := hi
  unfold Early.growth at hi
  by_cases h1 : ptr = P.sym
  · subst h1
    have : u32 st.scanned.symtab.numLocals = i := Option.some.inj hi
    rw [← this]; exact u32_lt _
  · by_cases h2 : ptr = P.dynsym
    · subst h2
      have : u32 st.scanned.dynsym.numLocals = i := Option.some.inj hi
      rw [← this]; exact u32_lt _
    · rw [if_neg h1, if_neg h2] at hi
      simp only [apply_ite Growth.info, ite_self] at hi
      cases hi

/-- the headers of the placed sections -/
theorem Writer.Early.placed_fits (st : Early sched w) (hv : sched.Valid) (h : Hist opts ops w) (hF : FieldsFit ops) (hf : FlagsOk ops)
    (hl : w.dynsym.symbols.length < 2 ^ 32) (hs : w.span < 2 ^ 32) {i : Nat} {p : Section} (hp : st.placed.sections[i]? = some p) : p.sh.Fits := by
  obtain ⟨s0, a, T⟩ := st.trip hv h.secFacts h.untouched hp
  have hr := st.ready hv h.secFacts hf
  have hst := h.static hF s0 T.mem0
  have e1 : a.sh = s0.sh := congrArg (·.2.2.2.2.1) T.bare
  have e2 : p.sh = { ((st.growth a.ptr).apply a).sh with sh_addr := p.sh.sh_addr, sh_offset := p.sh.sh_offset } := T.core.2.2.2.2.1
  have hsz : p.sh.sh_size < 256 ^ 8 := by
    have := st.size_le hv h hl (List.mem_of_getElem? hp)
    have : w.weight ≤ w.span := by unfold Writer.span; omega
    omega
  have hao : p.sh.sh_addr < 256 ^ 8 ∧ p.sh.sh_offset < 256 ^ 8 := by
    obtain ⟨p1, _, p3, _⟩ := st.placed_eq h.untouched
    rw [p1] at hp
    cases hss : st.sorted.sections with
    | nil => have := hr.nonempty; rw [hss] at this; simp at this
    | cons n l =>
      rw [hss] at hp
      cases i with
      | zero =>
        simp only [List.take_succ_cons, List.take_zero, List.cons_append, List.nil_append, List.getElem?_cons_zero, Option.some.injEq] at hp
        subst hp
        have q1 := (sortSecs_perm hv st.hsort (F := fun s => (s.sh.sh_addr, s.sh.sh_offset)) (fun _ _ => rfl)).1
        rw [hss, st.presort h.secFacts.known] at q1
        have q2 := map_of_map (scan_sections st.hscan).1 (fun b => (b.2.2.2.2.1.sh_addr, b.2.2.2.2.1.sh_offset)) (F := bare) (G := fun s : Section => (s.sh.sh_addr, s.sh.sh_offset)) fun _ => rfl
        have q3 : (n.sh.sh_addr, n.sh.sh_offset) ∈ st.scanned.sections.map fun s => (s.sh.sh_addr, s.sh.sh_offset) := by
          have : (n.sh.sh_addr, n.sh.sh_offset) ∈ ((n :: l).take 1).map fun s => (s.sh.sh_addr, s.sh.sh_offset) := by simp
          rw [q1] at this
          obtain ⟨x, hx, e⟩ := List.mem_map.1 this
          obtain ⟨y, hy, rfl⟩ := List.mem_map.1 (List.mem_of_mem_take hx)
          exact List.mem_map.2 ⟨y, hy, e⟩
        rw [q2] at q3
        obtain ⟨y, hy, e⟩ := List.mem_map.1 q3
        have hy := h.static hF y hy
        rw [hy.addr, hy.offset, Prod.mk.injEq] at e
        rw [← e.1, ← e.2]
        exact ⟨by decide, by decide⟩
      | succ i =>
        refine ⟨?_, ?_⟩
        · have := st.addr_le hv h hf hl (i := i + 1) (p := p) (by rw [p1, hss]; exact hp) (by omega)
          omega
        · simp only [List.take_succ_cons, List.take_zero, List.cons_append, List.nil_append, List.getElem?_cons_succ] at hp
          rw [← hss] at hp
          have h1 := ((hr.inv (isInterp := fun sh => w.shstr.name sh.sh_name == some b!".interp") (phentsize := sizeofProgramHeader) (v0 := 0x200000)).secs p
            (List.mem_of_getElem? hp)).2.1
          have h2 := st.fileOffset_le hv h hl
          rw [p3] at h2
          have : w.weight + 1024 ≤ w.span := by unfold Writer.span; omega
          omega
  have hinfo : ((st.growth a.ptr).info.getD a.sh.sh_info) < 256 ^ 4 := by
    cases hg : (st.growth a.ptr).info with
    | none => rw [e1]; exact hst.info
    | some x => exact st.placed_info a.ptr x hg
  rw [e2]
  refine ⟨?_, ?_, ?_, hao.1, hao.2, ?_, ?_, hinfo, ?_, ?_⟩
  · show a.sh.sh_name < _; rw [e1]; exact hst.name
  · show a.sh.sh_type < _; rw [e1]; exact hst.type
  · show a.sh.sh_flags < _; rw [e1]; exact hst.flags
  · rw [e2] at hsz; exact hsz
  · show a.sh.sh_link < _; rw [e1]; exact hst.link
  · show a.sh.sh_addralign < _; rw [e1]; exact hst.addralign
  · show a.sh.sh_entsize < _; rw [e1]; exact hst.entsize

end Dld
