import Verif.Lemmas.Dynamic
import Verif.Lemmas.Check
import Verif.Props.Program
/-! # Properties of the output file, read from its bytes -/
namespace Dld
open Writer Spec StringTable

variable {opts : Options} {ops : List Op} {sched : Sched} {w w' : Writer} {file : Bytes} {secs : List Section}

/-! ### The null section -/

theorem finalizeSec_link {s t : Section} (h : finalizeSec sched w s = .ok t) :
    match s.link with
    | none => t.sh.sh_link = s.sh.sh_link
    | some p => ∃ l ∈ w.sections, l.ptr = p ∧ t.sh.sh_link = u32 l.index := by
  have key : ∀ u : Section, u.link = s.link → u.sh.sh_link = s.sh.sh_link → (match u.link with
      | none => (.ok u : M Section)
      | some p => do
        let l ← w.sec p
        .ok { u with sh := { u.sh with sh_link := u32 l.index } }) = .ok t →
      match s.link with
      | none => t.sh.sh_link = s.sh.sh_link
      | some p => ∃ l ∈ w.sections, l.ptr = p ∧ t.sh.sh_link = u32 l.index := by
    intro u e1 e2 hu
    rw [e1] at hu
    cases hl : s.link with
    | none => rw [hl] at hu; cases hu; exact e2
    | some p =>
      rw [hl] at hu
      simp only [bind_ok] at hu
      obtain ⟨l, h1, h2⟩ := hu
      obtain ⟨m1, m2⟩ := sec_ok h1
      cases h2
      exact ⟨l, m1, m2, rfl⟩
  unfold finalizeSec at h
  cases hk : s.kind with
  | symtab =>
    simp only [hk] at h
    rw [bind_ok] at h
    obtain ⟨u, h1, h2⟩ := h
    obtain ⟨_, rfl⟩ := modifyChunk_ok h1
    refine key _ ?_ ?_ h2 <;> rfl
  | dynsym =>
    simp only [hk] at h
    rw [bind_ok] at h
    obtain ⟨u, h1, h2⟩ := h
    obtain ⟨_, rfl⟩ := modifyChunk_ok h1
    refine key _ ?_ ?_ h2 <;> rfl
  | copyRel =>
    simp only [hk] at h
    exact key (setSize w.copyRel.size s) rfl rfl h
  | _ =>
    simp only [hk] at h
    exact key s rfl rfl h

/-- the link field of a section as the interface leaves it -/
theorem WInv.sh_link {w0 : Writer} {pn : List Name} (hI : WInv opts w0 ops w pn) (h0 : Writer.new opts = .ok w0) {s : Section}
    (hs : s ∈ w.sections) : (s.ptr < P.first → s.sh.sh_link = 0) ∧
      (s.sh.sh_link = 0 ∨ ∃ n sh d r, Op.push n sh d r ∈ ops ∧ s.sh.sh_link = sh.sh_link) := by
  have hf := (new_idents opts w0 h0).2.1
  have own : s.ptr < P.first → s.sh.sh_link = 0 := by
    intro hp
    obtain ⟨b, n, hb, _, _, hM⟩ := hI.own h0 hs hp
    rw [hM.sh]
    exact (hf b hb).2.2.2.1
  refine ⟨own, ?_⟩
  obtain ⟨i, hi, rfl⟩ := List.getElem_of_mem hs
  by_cases hlt : i < (tabNames opts.hashStyle).length
  · obtain ⟨b, n, hb, _, hM⟩ := hI.base i _ hlt (List.getElem?_eq_getElem hi)
    left
    rw [hM.sh]
    exact (hf b (List.mem_of_getElem? hb)).2.2.2.1
  · right
    obtain ⟨k, rfl⟩ := Nat.exists_eq_add_of_le (Nat.le_of_not_lt hlt)
    obtain ⟨m, p, ps, _, h2, hM⟩ := hI.pushed k _ (List.getElem?_eq_getElem hi)
    obtain ⟨r, hr⟩ := mem_pushesOf (n := m) (ops := ops) (p := p) (by rw [h2]; simp)
    refine ⟨m, p.1, p.2, r, hr, ?_⟩
    rw [hM.sh]; rfl

theorem Run.link (h : Run opts ops sched w w' file secs) (hf : FlagsOk ops) {t : Section} (ht : t ∈ secs) :
    match t.link with
    | none => (t.ptr < P.first → t.sh.sh_link = 0) ∧ (t.sh.sh_link = 0 ∨ ∃ n sh d r, Op.push n sh d r ∈ ops ∧ t.sh.sh_link = sh.sh_link)
    | some p => ∃ (i : Nat) (l : Section), secs[i]? = some l ∧ l.ptr = p ∧ t.sh.sh_link = u32 i := by
  obtain ⟨i, hi, rfl⟩ := List.getElem_of_mem ht
  obtain ⟨s, hs, hfin, hz⟩ := h.finalized (List.getElem?_eq_getElem hi)
  have hlink := finalizeSec_link hz
  rw [hfin.link]
  cases hl : s.link with
  | none =>
    rw [hl] at hlink
    have hlink : secs[i].sh.sh_link = s.sh.sh_link := hlink
    obtain ⟨w0, pn, h0, hI⟩ := h.hist.winv
    obtain ⟨st, rfl⟩ := h.stages
    obtain ⟨s0, hs0, hfr⟩ := (st.sources h.valid h.hist.secFacts h.hist.untouched).1 s (List.mem_of_getElem? hs)
    have e : secs[i].sh.sh_link = s0.sh.sh_link := by rw [hlink, hfr.sh]
    have hp : secs[i].ptr = s0.ptr := by rw [hfin.ptr, hfr.ptr]
    show (secs[i].ptr < P.first → secs[i].sh.sh_link = 0) ∧ _
    rw [e, hp]
    exact hI.sh_link h0 hs0
  | some p =>
    rw [hl] at hlink
    obtain ⟨l, hl1, hl2, hl3⟩ := hlink
    obtain ⟨j, hj, rfl⟩ := List.getElem_of_mem hl1
    have hlen := h.secs_length
    have hj' : j < secs.length := by omega
    obtain ⟨l', hl', hfin', _⟩ := h.finalized (List.getElem?_eq_getElem hj')
    rw [List.getElem?_eq_getElem hj] at hl'
    cases hl'
    obtain ⟨hdr, st, hL⟩ := h.laid hf
    exact ⟨j, _, List.getElem?_eq_getElem hj', by rw [hfin'.ptr, hl2], by rw [hl3, hL.index j _ (List.getElem?_eq_getElem hj)]⟩

theorem Run.null_first (h : Run opts ops sched w w' file secs) (hg : GoodInputs ops) : ∃ t rest, secs = t :: rest ∧ t.ptr = P.null ∧
    t.sh.sh_name = 0 ∧ t.sh.sh_type = 0 ∧ t.sh.sh_flags = 0 ∧ t.sh.sh_addr = 0 ∧ t.sh.sh_offset = 0 ∧ t.sh.sh_size = 0 ∧ t.sh.sh_link = 0 ∧
    t.sh.sh_entsize = 0 := by
  obtain ⟨nul, rest, hw, np, nk, nl, no, na⟩ := h.null_head
  have hlen := h.secs_length
  obtain ⟨w0, pn, h0, hI⟩ := h.hist.winv
  have hsf := h.hist.secFacts
  cases hs : secs with
  | nil => rw [hs, hw] at hlen; cases hlen
  | cons t ts =>
    have ht : t ∈ secs := by rw [hs]; simp
    obtain ⟨s, hs', hfin, _⟩ := h.finalized (i := 0) (t := t) (by rw [hs]; rfl)
    rw [hw] at hs'
    cases hs'
    have hp : t.ptr = P.null := by rw [hfin.ptr]; exact np
    have ho := (h.known hg.flags ht).own (by rw [hp]; decide)
    have e1 : t.sh.sh_type = (ownOrigin t.ptr).2.2.2.1 := congrArg (·.2.2.2.1) ho
    have e2 : t.sh.sh_flags = (ownOrigin t.ptr).2.2.2.2.1 := congrArg (·.2.2.2.2.1) ho
    have e3 : t.sh.sh_entsize = (ownOrigin t.ptr).2.2.2.2.2 := congrArg (·.2.2.2.2.2) ho
    have e4 : t.link = (ownOrigin t.ptr).2.1 := congrArg (·.2.1) ho
    rw [hp] at e1 e2 e3 e4
    have hz : nul.sh.sh_size = 0 := by
      have hs : nul ∈ w'.sections := by rw [hw]; simp
      obtain ⟨st', e⟩ := h.stages
      subst e
      obtain ⟨s0, hs0, hfr⟩ := (st'.sources h.valid hsf h.hist.untouched).1 nul hs
      have hp0 : s0.ptr = P.null := by rw [← hfr.ptr]; exact np
      have := (hg.clean.own hI h0 hs0 (by rw [hp0]; decide)).1
      rw [hp0, if_neg (by decide)] at this
      rw [hfr.sh, hp0]
      show (none : Option Nat).getD _ = 0
      exact this
    have hlk := h.link hg.flags ht
    rw [e4] at hlk
    refine ⟨t, ts, rfl, hp, ?_, e1, e2, by rw [hfin.addr, na], by rw [hfin.offset, no], ?_, hlk.1 (by rw [hp]; decide), e3⟩
    · obtain ⟨s, hs, e⟩ := h.origin hg.flags ht
      obtain ⟨s0, r0, e5, e6⟩ := hsf.head
      have hs0 : s = s0 := by
        have h1 : s.ptr = t.ptr := (congrArg (·.1) e).symm
        exact eq_of_ptr hsf.nodup hs (by rw [e5]; simp) (by rw [h1, hp]; exact e6.symm)
      rw [show t.sh.sh_name = s.sh.sh_name from congrArg (·.2.2.2.1) e, hs0]
      have hnm := congrArg (·[0]?) (hI.sh_names h0)
      rw [e5] at hnm
      simp only [List.getElem?_map, List.getElem?_cons_zero, Option.map_some] at hnm
      have hb : (baseNames opts.hashStyle ++ pn)[0]? = some [] := by cases opts.hashStyle <;> rfl
      rw [hb] at hnm
      simp only [Option.map_some, Option.some.injEq] at hnm
      rw [hnm]
      cases opts.hashStyle <;> rfl
    · rw [hfin.size (by rw [hfin.kind, nk]; decide), hz]

/-! ### C39 -/

/-- **C39**: in the output file the bytes of a section are at `[sh_offset, sh_offset + size)`, where
the size is 0 for `SHT_NOBITS` sections; the ranges of the sections are disjoint and in order, they lie
behind the program headers and before the section header table, and the section header table ends the
file. -/
theorem C39_file_ranges (h : GoodRun opts ops sched w w' file secs) :
    (∀ (i : Nat) (s : Section), secs[i]? = some s → ∃ e, (shdrs file)[i]? = some e ∧ slice file e.offset e.fileSize = contents s ∧
      (contents s).length = e.fileSize) ∧
    (shdrs file).Pairwise (fun a b => a.offset + a.fileSize ≤ b.offset) ∧
    (∀ e ∈ (shdrs file).drop 1, 64 + 56 * (decodeEhdr file).phnum ≤ e.offset ∧ e.offset + e.fileSize ≤ (decodeEhdr file).shoff) ∧
    file.length = (decodeEhdr file).shoff + 64 * (decodeEhdr file).shnum := by
  have hr := h.run.reads h.good h.names h.fit
  obtain ⟨hdr, st, hl⟩ := h.run.laid h.good.flags
  obtain ⟨t0, rest, e0, _, _, _, _, _, e1, e2, _⟩ := h.run.null_first h.good
  obtain ⟨nul, rest', hw, _⟩ := h.run.null_head
  have h37 := C37_program_headers_fit h.run h.good.flags h.good.dynamic h.names h.fit.segCount
  have hsrc : ∀ (i : Nat) (t : Section), rest[i]? = some t → ∃ s, rest'[i]? = some s ∧ t.sh.sh_offset = s.sh.sh_offset ∧ t.sizeOnDisk = s.sizeOnDisk := by
    intro i t ht
    obtain ⟨s, hs, hfin, _⟩ := h.run.finalized (i := i + 1) (t := t) (by rw [e0]; simpa using ht)
    exact ⟨s, by rw [hw] at hs; simpa using hs, hfin.offset, h.run.disk_eq (List.mem_of_getElem? hs) hfin⟩
  have hinv := hl.inv
  rw [show w'.sections.drop 1 = rest' by rw [hw]; rfl] at hinv
  refine ⟨?_, ?_, ?_, ?_⟩
  · intro i s hs
    refine ⟨s.sh.toSpec, by rw [hr.shdrs, List.getElem?_map, hs]; rfl, hr.body s (List.mem_of_getElem? hs), ?_⟩
    rw [toSpec_fileSize]
    exact h.run.contents_length h.good.clean hs
  · rw [hr.shdrs, e0, List.map_cons, List.pairwise_cons]
    refine ⟨?_, ?_⟩
    · intro b hb
      obtain ⟨t, ht, rfl⟩ := List.mem_map.1 hb
      have : t0.sh.toSpec.fileSize = 0 := by
        rw [toSpec_fileSize]; unfold Section.sizeOnDisk; rw [e2]; simp
      rw [this]
      show t0.sh.sh_offset + 0 ≤ _
      rw [e1]; exact Nat.zero_le _
    · rw [List.pairwise_map, List.pairwise_iff_getElem]
      intro i j hi hj hij
      obtain ⟨s1, a1, a2, a3⟩ := hsrc i _ (List.getElem?_eq_getElem hi)
      obtain ⟨s2, b1, b2, b3⟩ := hsrc j _ (List.getElem?_eq_getElem hj)
      obtain ⟨k1, rfl⟩ := List.getElem?_eq_some_iff.1 a1
      obtain ⟨k2, rfl⟩ := List.getElem?_eq_some_iff.1 b1
      have := (List.pairwise_iff_getElem.1 hinv.secsAsc i j k1 k2 hij).1
      rw [toSpec_fileSize, a3]
      show rest[i].sh.sh_offset + _ ≤ rest[j].sh.sh_offset
      rw [a2, b2]; exact this
  · intro e he
    rw [hr.shdrs, e0] at he
    obtain ⟨t, ht, rfl⟩ := List.mem_map.1 (by simpa using he : e ∈ rest.map fun s => s.sh.toSpec)
    obtain ⟨i, hi, rfl⟩ := List.getElem_of_mem ht
    obtain ⟨s1, a1, a2, a3⟩ := hsrc i _ (List.getElem?_eq_getElem hi)
    rw [hr.ehdr]
    refine ⟨h37.2.2.2 _ (by rw [e0]; exact ht), ?_⟩
    rw [toSpec_fileSize, a3]
    show rest[i].sh.sh_offset + _ ≤ w'.eh.e_shoff
    rw [a2, hl.shoff]
    exact (hinv.secs s1 (List.mem_of_getElem? a1)).2.1
  · rw [hr.ehdr]; exact hr.length

/-- the demo link meets the hypotheses; its file has 20 sections, 17 of them with bytes in the file -/
example : ∃ w w' f s, GoodRun Options.default demoOps Sched.rev w w' f s ∧
    ((shdrs f).length == 20 && ((shdrs f).filter fun e => e.fileSize != 0).length == 17) = true :=
  GoodRun.of_runs Sched.rev_valid demo_good (by decide +kernel)

/-! ### Sections by name -/

theorem filter_key {α β : Type} [DecidableEq β] {l : List α} {f : α → β} (hn : (l.map f).Nodup) {x : α} (hx : x ∈ l) :
    l.filter (fun y => f y == f x) = [x] := by
  induction l with
  | nil => cases hx
  | cons a l ih =>
    simp only [List.map_cons, List.nodup_cons] at hn
    rcases List.mem_cons.1 hx with rfl | hx
    · rw [List.filter_cons, if_pos (by simp)]
      congr 1
      rw [List.filter_eq_nil_iff]
      intro y hy
      simp only [beq_iff_eq]
      intro e
      exact hn.1 (e ▸ List.mem_map_of_mem hy)
    · rw [List.filter_cons, if_neg, ih hn.2 hx]
      simp only [beq_iff_eq]
      intro e
      exact hn.1 (e ▸ List.mem_map_of_mem hx)

theorem GoodRun.named (h : GoodRun opts ops sched w w' file secs) (n : Name) :
    sectionsNamed file n = (secs.filter fun t => Dld.nameOf w t == some n).map fun t => t.sh.toSpec := by
  unfold sectionsNamed
  rw [(h.run.reads h.good h.names h.fit).shdrs, List.filter_map]
  congr 1
  apply List.filter_congr
  intro t ht
  show (Spec.nameOf file t.sh.toSpec == some n) = _
  rw [h.run.reads_name h.good h.clean h.names h.fit ht]

/-- an own section, by name -/
theorem GoodRun.own (h : GoodRun opts ops sched w w' file secs) {p : Nat} (hp : p ∈ (baseIdents opts.hashStyle).map (·.1)) :
    ∃ t ∈ secs, t.ptr = p ∧ sectionsNamed file (ptrName p) = [t.sh.toSpec] := by
  obtain ⟨t, ht, hpt, hu⟩ := h.run.own_one h.good.flags hp
  refine ⟨t, ht, hpt, ?_⟩
  rw [h.named]
  have hlt : p < P.first := (baseIdents_ptr opts.hashStyle).2 p hp
  have e : secs.filter (fun t => Dld.nameOf w t == some (ptrName p)) = secs.filter (fun u => u.ptr == t.ptr) := by
    apply List.filter_congr
    intro u hu
    have := h.run.name_own h.good h.names hu hlt
    rw [hpt]
    apply Bool.eq_iff_iff.2
    simpa using this
  rw [e, filter_key (h.run.ptrs_nodup h.good.flags) ht]
  rfl

/-! ### C48, C49 -/

/-- **C48**: `e_shoff` and `e_shnum` locate a table of 64-byte section headers that ends the file and
holds the headers of all sections; entry 0 is the null section; entry `e_shstrndx` is `.shstrtab`. -/
theorem C48_section_table (h : GoodRun opts ops sched w w' file secs) :
    shdrs file = secs.map (fun s => s.sh.toSpec) ∧
    (decodeEhdr file).shentsize = 64 ∧ (decodeEhdr file).shnum = secs.length ∧
    file.length = (decodeEhdr file).shoff + 64 * (decodeEhdr file).shnum ∧
    (∃ z, (shdrs file)[0]? = some z ∧ z.name = 0 ∧ z.type = 0 ∧ z.flags = 0 ∧ z.addr = 0 ∧ z.offset = 0 ∧ z.size = 0 ∧ z.link = 0 ∧ z.entsize = 0) ∧
    (∃ s, (shdrs file)[(decodeEhdr file).shstrndx]? = some s ∧ s.type = 3 ∧ Spec.nameOf file s = some b!".shstrtab") := by
  have hr := h.run.reads h.good h.names h.fit
  obtain ⟨t0, rest, e0, _, e1, e2, e3, e4, e5, e6, e7, e8⟩ := h.run.null_first h.good
  refine ⟨hr.shdrs, by rw [hr.ehdr], by rw [hr.ehdr], by rw [hr.ehdr]; exact hr.length,
    ⟨t0.sh.toSpec, by rw [hr.shdrs, e0]; rfl, e1, e2, e3, e4, e5, e6, e7, e8⟩, ?_⟩
  obtain ⟨i, t, hi, hp, he⟩ := h.run.shstrndx h.good.flags
  have hlt : i < secs.length := (List.getElem?_eq_some_iff.1 hi).1
  have hi16 : u16 i = i := Nat.mod_eq_of_lt (by have := h.fit.count; omega)
  have ht := List.mem_of_getElem? hi
  refine ⟨t.sh.toSpec, ?_, ?_, ?_⟩
  · rw [hr.ehdr, hr.shdrs]
    simp only [he, hi16, List.getElem?_map, hi, Option.map_some]
  · have ho := (h.run.known h.good.flags ht).own (by rw [hp]; decide)
    have e1 : t.sh.sh_type = (ownOrigin t.ptr).2.2.2.1 := congrArg (·.2.2.2.1) ho
    rw [hp] at e1
    exact e1
  · rw [h.run.reads_name h.good h.clean h.names h.fit ht]
    exact (h.run.name_own h.good h.names ht (p := P.shstr) (by decide)).2 hp

/-- the demo link: 20 section headers, `.shstrtab` is number 18 -/
example : ∃ w w' f s, GoodRun Options.default demoOps Sched.id w w' f s ∧
    ((decodeEhdr f).shnum == 20 && (decodeEhdr f).shstrndx == 18) = true :=
  GoodRun.of_runs Sched.id_valid demo_good (by decide +kernel)

theorem mem_ownNames (hs : HashStyle) (n : Name) : n ∈ ownNames hs.wantsSysv hs.wantsGnu ↔ n ∈ tabNames hs := by
  have h1 : ∀ n ∈ ownNames hs.wantsSysv hs.wantsGnu, n ∈ tabNames hs := by cases hs <;> decide
  have h2 : ∀ n ∈ tabNames hs, n ∈ ownNames hs.wantsSysv hs.wantsGnu := by cases hs <;> decide
  exact ⟨h1 n, h2 n⟩

/-- **C49**: every section header of the output has a name in the section name table; exactly one
section has the name of one of the writer's own sections or of a pushed section, and no section has
any other name. -/
theorem C49_names (h : GoodRun opts ops sched w w' file secs) :
    (∀ e ∈ shdrs file, ∃ n, Spec.nameOf file e = some n) ∧
    (∀ n ∈ ownNames opts.hashStyle.wantsSysv opts.hashStyle.wantsGnu, (sectionsNamed file n).length = 1) ∧
    (∀ n sh d r, Op.push n sh d r ∈ ops → (sectionsNamed file n).length = 1) ∧
    (∀ n, n ∉ ownNames opts.hashStyle.wantsSysv opts.hashStyle.wantsGnu → (∀ sh d r, Op.push n sh d r ∉ ops) → sectionsNamed file n = []) := by
  obtain ⟨w0, pn, h0, hI⟩ := h.run.hist.winv
  have hp := h.run.names_perm h.good h.clean h.names h.fit hI h0
  have hcount : ∀ n, (sectionsNamed file n).length = (baseNames opts.hashStyle ++ pn).count n := by
    intro n
    unfold sectionsNamed
    rw [← List.countP_eq_length_filter]
    have h1 := hp.count_eq (some n)
    rw [List.count_eq_countP, List.countP_map] at h1
    have h2 : List.count (some n) ((baseNames opts.hashStyle ++ pn).map some) = (baseNames opts.hashStyle ++ pn).count n := by
      rw [List.count_eq_countP, List.countP_map, List.count_eq_countP]
      apply List.countP_congr
      intro x _
      simp
    rw [h2] at h1
    rw [← h1]
    rfl
  have hnd : (baseNames opts.hashStyle ++ pn).Nodup := by
    have := hI.names.nodup
    exact ((tabNames_perm opts.hashStyle).append_right pn).nodup_iff.2 this
  have hone : ∀ n, n ∈ tabNames opts.hashStyle ++ pn → (sectionsNamed file n).length = 1 := by
    intro n hn
    rw [hcount]
    rw [hnd.count, if_pos (((tabNames_perm opts.hashStyle).append_right pn).mem_iff.2 hn)]
  refine ⟨?_, ?_, ?_, ?_⟩
  · intro e he
    have := hp.mem_iff.1 (List.mem_map_of_mem he)
    obtain ⟨n, _, hn⟩ := List.mem_map.1 this
    exact ⟨n, hn.symm⟩
  · intro n hn
    exact hone n (List.mem_append_left _ ((mem_ownNames _ _).1 hn))
  · intro n sh d r hm
    exact hone n (hI.push_name hm)
  · intro n hn hm
    rw [← List.length_eq_zero_iff, hcount]
    rw [List.count_eq_zero]
    intro h1
    rcases List.mem_append.1 h1 with h1 | h1
    · exact hn ((mem_ownNames _ _).2 ((tabNames_perm opts.hashStyle).mem_iff.1 h1))
    · obtain ⟨_, sh, d, r, h2⟩ := hI.pushed_name h1
      exact hm sh d r h2

/-- the demo link pushes `.text` twice; the file has one section of that name -/
example : ∃ w w' f s, GoodRun Options.default demoOps Sched.id w w' f s ∧
    ((sectionsNamed f b!".text").length == 1 && (sectionsNamed f b!".rodata").length == 0 && (pushesOf b!".text" demoOps).length == 2) = true :=
  GoodRun.of_runs Sched.id_valid demo_good (by decide +kernel)

/-! ### C51, C52: the dynamic section -/

theorem dynsOf_ser {l : List (DynTag × Nat)} (h : ∀ d ∈ l, d.2 < 256 ^ 8) : dynsOf (serVec serDyn l) = l.map dynPair := by
  unfold dynsOf
  have hl : (serVec serDyn l).length / 16 = l.length := by
    have : (serVec serDyn l).length = l.length * 16 := length_flatMap_const (f := serDyn) (k := 16) length_serDyn l
    omega
  rw [hl]
  refine range_map_decode fun i a ha => ?_
  rw [decodeDyn_drop]
  have := serVec_drop (f := serDyn) (k := 16) length_serDyn ha [] []
  simp only [List.nil_append, List.append_nil, List.length_nil, Nat.zero_add] at this
  rw [this]
  exact decodeDyn_ser a (h a (List.mem_of_getElem? ha)) _

theorem dynEntriesOf_values (n : Name) (sh : SectionHeader) :
    ∀ d ∈ dynEntriesOf n sh, d.2 ∈ [sh.sh_addr, sh.sh_size, sh.sh_entsize, 7, 0] := by
  unfold dynEntriesOf
  repeat' split
  all_goals simp [DynTag.toNat]

theorem dynEntriesOf_fits {n : Name} {sh : SectionHeader} (h : sh.Fits) : ∀ d ∈ dynEntriesOf n sh, d.2 < 256 ^ 8 := by
  intro d hd
  have := dynEntriesOf_values n sh d hd
  simp only [List.mem_cons, List.not_mem_nil, or_false] at this
  rcases this with e | e | e | e | e <;> rw [e]
  · exact h.addr
  · exact h.size
  · exact h.entsize
  · decide
  · decide

/-- the contents of the dynamic section and of the string table it refers to -/
theorem GoodRun.dyns (h : GoodRun opts ops sched w w' file secs) : ∃ d s f, sectionsNamed file b!".dynamic" = [d] ∧ d.type = 6 ∧
    d.size = (bodyOf file d).length ∧ d.size % 16 = 0 ∧
    sectionsNamed file b!".dynstr" = [s] ∧ s.type = 3 ∧ opts.dynamicLinker.file = some f ∧
    StringTable.Holds w.dynstr (internAll [[]] (f :: dynNames ops)) ∧ bodyOf file s = w.dynstr.chunk ∧
    (∀ n ∈ f :: newlyNeeded [f, []] ops, n ∈ internAll [[]] (f :: dynNames ops)) ∧
    dynsOf (bodyOf file d) = (f :: newlyNeeded [f, []] ops).map (fun n => (1, nameOff (internAll [[]] (f :: dynNames ops)) n)) ++
      secs.flatMap (fun t => (dynEntriesOf ((Dld.nameOf w t).getD []) t.sh).map dynPair) ++ [(0, 0)] := by
  have hr := h.run.reads h.good h.names h.fit
  obtain ⟨d, hd, hdp, hdn⟩ := h.own (p := P.dynamic) (base_has _ _ (by simp))
  obtain ⟨s, hs, hsp, hsn⟩ := h.own (p := P.dynstr) (base_has _ _ (by simp))
  obtain ⟨f, hf, hH, hmem, hent⟩ := h.run.hist.needed
  obtain ⟨st, hst⟩ := h.run.stages
  have hdb : contents d = serVec serDyn w'.dynEntries := by
    rw [h.run.own_bytes h.good.clean st hst hd (by rw [hdp]; decide) (by rw [hdp]; decide) (by rw [hdp]; decide)
      (by rw [hdp]; decide) (by rw [hdp]; decide), hdp, ← hst]
    rfl
  have hsb : contents s = w.dynstr.chunk := by
    rw [h.run.own_bytes h.good.clean st hst hs (by rw [hsp]; decide) (by rw [hsp]; decide) (by rw [hsp]; decide)
      (by rw [hsp]; decide) (by rw [hsp]; decide), hsp]
    rfl
  have hty : ∀ {t : Section} {p : Nat}, t ∈ secs → t.ptr = p → p < P.first → t.sh.sh_type = (ownOrigin p).2.2.2.1 := by
    intro t p ht e hp
    have ho := (h.run.known h.good.flags ht).own (by rw [e]; exact hp)
    have e1 : t.sh.sh_type = (ownOrigin t.ptr).2.2.2.1 := congrArg (·.2.2.2.1) ho
    rw [e] at e1
    exact e1
  have hlen : ∀ {t : Section}, t ∈ secs → t.sh.sh_type ≠ 8 → (contents t).length = t.sh.sh_size := by
    intro t ht h8
    obtain ⟨i, hi, rfl⟩ := List.getElem_of_mem ht
    rw [h.run.contents_length h.good.clean (List.getElem?_eq_getElem hi)]
    unfold Section.sizeOnDisk
    rw [if_pos (show _ ≠ SHT_NOBITS from h8)]
  have hdt := hty hd hdp (by decide)
  have hst' := hty hs hsp (by decide)
  have hds := hlen hd (by rw [hdt]; decide)
  have hss := hlen hs (by rw [hst']; decide)
  have htot : StringTable.total (internAll [[]] (f :: dynNames ops)) < 256 ^ 8 := by
    rw [← hH.total, ← Holds.length_chunk hH, ← hsb, hss]
    exact (h.fit.secs s hs).size
  have hfits : ∀ e ∈ w'.dynEntries, e.2 < 256 ^ 8 := by
    rw [h.run.dyn_entries h.good h.names]
    intro e he
    rw [List.mem_append, List.mem_append] at he
    rcases he with (he | he) | he
    · rw [hent] at he
      obtain ⟨n, hn, rfl⟩ := List.mem_map.1 he
      exact Nat.lt_trans (nameOff_lt (hmem n hn)) htot
    · obtain ⟨t, ht, he⟩ := List.mem_flatMap.1 he
      exact dynEntriesOf_fits (h.fit.secs t ht) e he
    · simp only [List.mem_singleton] at he
      subst he; show (0 : Nat) < _; decide
  refine ⟨d.sh.toSpec, s.sh.toSpec, f, hdn, hdt, ?_, ?_, hsn, hst', hf, hH, ?_, hmem, ?_⟩
  · rw [hr.body d hd, hds]; rfl
  · show d.sh.sh_size % 16 = 0
    rw [← hds, hdb]
    have : (serVec serDyn w'.dynEntries).length = w'.dynEntries.length * 16 := length_flatMap_const (f := serDyn) (k := 16) length_serDyn _
    omega
  · rw [hr.body s hs, hsb]
  · rw [hr.body d hd, hdb, dynsOf_ser hfits, h.run.dyn_entries h.good h.names, List.map_append, List.map_append, hent, List.map_map, List.map_flatMap]
    rfl

theorem flatMap_ite {α β : Type} {l : List α} {p : α → Bool} {g : α → β} {f : α → List β} (h : ∀ a ∈ l, f a = if p a then [g a] else []) :
    l.flatMap f = (l.filter p).map g := by
  induction l with
  | nil => rfl
  | cons a l ih =>
    rw [List.flatMap_cons, h a (by simp), ih (fun b hb => h b (by simp [hb])), List.filter_cons]
    split <;> simp

theorem GoodRun.name_some (h : GoodRun opts ops sched w w' file secs) {t : Section} (ht : t ∈ secs) : ∃ n, Dld.nameOf w t = some n := by
  have := (C49_names h).1 t.sh.toSpec (by rw [(h.run.reads h.good h.names h.fit).shdrs]; exact List.mem_map_of_mem ht)
  rwa [h.run.reads_name h.good h.clean h.names h.fit ht] at this

/-- the types of the dynamic linking tables go with their names -/
theorem GoodRun.type_name (h : GoodRun opts ops sched w w' file secs) (hpt : PlainTypes ops) {t : Section} (ht : t ∈ secs)
    {n : Name} (hn : Dld.nameOf w t = some n) :
    (t.sh.sh_type = SHT_DYNSYM ↔ n = b!".dynsym") ∧
    (t.sh.sh_type = SHT_STRTAB ∧ (t.sh.sh_flags &&& SHF_ALLOC) = SHF_ALLOC ↔ n = b!".dynstr") ∧
    (t.sh.sh_type = SHT_HASH ↔ n = b!".hash") ∧ (t.sh.sh_type = SHT_GNU_HASH ↔ n = b!".gnu.hash") ∧
    (n = b!".rela.dyn" ∨ n = b!".rela.plt" ∨ n = b!".got.plt" → t.sh.sh_type ≠ SHT_INIT_ARRAY ∧ t.sh.sh_type ≠ SHT_FINI_ARRAY) := by
  obtain ⟨t1, t2, t3, t4⟩ := h.run.type_own h.good hpt ht
  have key : ∀ p < P.first, (t.ptr = p ↔ n = ptrName p) := by
    intro p hp
    have := h.run.name_own h.good h.names ht hp
    rw [hn] at this
    simpa using this.symm
  refine ⟨t1.trans (key _ (by decide)), t2.trans (key _ (by decide)), t3.trans (key _ (by decide)), t4.trans (key _ (by decide)), ?_⟩
  have hty : ∀ p, t.ptr = p → p < P.first → t.sh.sh_type = (ownOrigin p).2.2.2.1 := by
    intro p e hp
    have ho := (h.run.known h.good.flags ht).own (by rw [e]; exact hp)
    have e1 : t.sh.sh_type = (ownOrigin t.ptr).2.2.2.1 := congrArg (·.2.2.2.1) ho
    rw [e] at e1
    exact e1
  rintro (e | e | e)
  · rw [hty P.relaDyn ((key P.relaDyn (by decide)).2 e) (by decide)]; decide
  · rw [hty P.relaPlt ((key P.relaPlt (by decide)).2 e) (by decide)]; decide
  · rw [hty P.gotPlt ((key P.gotPlt (by decide)).2 e) (by decide)]; decide

/-- **C51**: the output has one `.dynamic` section, of type `SHT_DYNAMIC`. Its recorded size is the
number of its bytes. Its entries end with a `DT_NULL` that is the only one. Each tag that describes a
section is there once for every section of that name (for the sections every output has: exactly once), with the address, size or entry size of
that section; the array tags are there once for every section of the array type, and there are no other tags than these, `DT_NEEDED` and
`DT_RELACOUNT`. -/
theorem C51_dynamic (h : GoodRun opts ops sched w w' file secs) (hpt : PlainTypes ops) :
    ∃ d, sectionsNamed file b!".dynamic" = [d] ∧ d.type = 6 ∧ d.size = (bodyOf file d).length ∧ d.size = 16 * (dynsOf (bodyOf file d)).length ∧
    (∃ es, dynsOf (bodyOf file d) = es ++ [(0, 0)] ∧ ∀ e ∈ es, e.1 ≠ 0) ∧
    (∀ x ∈ sectionTags, (dynsOf (bodyOf file d)).filter (fun e => e.1 == x.1) = (sectionsNamed file x.2.1).map fun s => (x.1, x.2.2 s)) ∧
    (∀ x ∈ ([(25, 14, (·.addr)), (27, 14, (·.size)), (26, 15, (·.addr)), (28, 15, (·.size))] : List (Nat × Nat × (EShdr → Nat))),
      (dynsOf (bodyOf file d)).filter (fun e => e.1 == x.1) =
        ((shdrs file).filter fun s => s.type == x.2.1 && Spec.nameOf file s != some b!".init" && Spec.nameOf file s != some b!".fini").map
          fun s => (x.1, x.2.2 s)) ∧
    (∀ e ∈ dynsOf (bodyOf file d), e.1 ∈ [0, 1] ++ sectionTags.map (·.1) ++ [25, 26, 27, 28, 0x6ffffff9]) ∧
    (∀ n ∈ [b!".rela.plt", b!".got.plt", b!".dynstr", b!".dynsym", b!".rela.dyn"], (sectionsNamed file n).length = 1) := by
  have hr := h.run.reads h.good h.names h.fit
  obtain ⟨d, s, f, h1, h2, h3, h4, _, _, _, _, _, _, h5⟩ := h.dyns
  have hfilter : ∀ k : Nat, k ≠ 0 → k ≠ 1 → (dynsOf (bodyOf file d)).filter (fun e => e.1 == k) =
      secs.flatMap fun t => ((dynEntriesOf ((Dld.nameOf w t).getD []) t.sh).map dynPair).filter fun e => e.1 == k := by
    intro k k0 k1
    rw [h5, List.filter_append, List.filter_append, List.filter_flatMap]
    have e1 : ((f :: newlyNeeded [f, []] ops).map fun n => (1, nameOff (internAll [[]] (f :: dynNames ops)) n)).filter (fun e => e.1 == k) = [] := by
      rw [List.filter_eq_nil_iff]
      intro e he
      obtain ⟨n, _, rfl⟩ := List.mem_map.1 he
      simp [Ne.symm k1]
    have e2 : ([(0, 0)] : List (Nat × Nat)).filter (fun e => e.1 == k) = [] := by
      rw [List.filter_eq_nil_iff]
      intro e he
      simp only [List.mem_singleton] at he
      subst he
      simp [Ne.symm k0]
    rw [e1, e2, List.nil_append, List.append_nil]
  refine ⟨d, h1, h2, h3, ?_, ⟨_, h5, ?_⟩, ?_, ?_, ?_, ?_⟩
  · unfold dynsOf
    simp only [List.length_map, List.length_range]
    omega
  · intro e he
    rcases List.mem_append.1 he with he | he
    · obtain ⟨n, _, rfl⟩ := List.mem_map.1 he
      exact Nat.one_ne_zero
    · obtain ⟨t, ht, he⟩ := List.mem_flatMap.1 he
      obtain ⟨e', he', rfl⟩ := List.mem_map.1 he
      have := dynEntriesOf_tags _ _ e' he'
      intro hz
      have hz' : e'.1.toNat = 0 := hz
      rw [hz'] at this
      revert this; decide
  · intro x hx
    have htag : ∀ k ∈ sectionTags.map (·.1), k ≠ 0 ∧ k ≠ 1 := by decide
    obtain ⟨k0, k1⟩ := htag x.1 (List.mem_map_of_mem hx)
    rw [hfilter x.1 k0 k1, h.named, List.map_map]
    refine flatMap_ite fun t ht => ?_
    obtain ⟨n, hn⟩ := h.name_some ht
    obtain ⟨a, b, c, e, _⟩ := h.type_name hpt ht hn
    rw [hn]
    have := dynEntriesOf_tag a b c e x hx
    simp only [Option.getD_some] at this ⊢
    rw [this]
    by_cases hnx : n = x.2.1
    · simp [hnx]
    · simp [hnx]
  · intro x hx
    have htag : ∀ k ∈ [25, 27, 26, 28], k ≠ 0 ∧ k ≠ 1 := by decide
    have hx1 : x.1 ∈ [25, 27, 26, 28] := by
      simp only [List.mem_cons, List.not_mem_nil, or_false] at hx
      rcases hx with rfl | rfl | rfl | rfl <;> simp
    obtain ⟨k0, k1⟩ := htag x.1 hx1
    rw [hfilter x.1 k0 k1, hr.shdrs, List.filter_map, List.map_map]
    refine flatMap_ite fun t ht => ?_
    obtain ⟨n, hn⟩ := h.name_some ht
    obtain ⟨a, b, c, e, a2⟩ := h.type_name hpt ht hn
    obtain ⟨i1, i2, i3, i4⟩ := dynEntriesOf_array a2
    have hnm : Spec.nameOf file t.sh.toSpec = some n := by rw [h.run.reads_name h.good h.clean h.names h.fit ht, hn]
    rw [hn]
    simp only [Option.getD_some, Function.comp, hnm]
    simp only [List.mem_cons, List.not_mem_nil, or_false] at hx
    rcases hx with rfl | rfl | rfl | rfl
    · rw [i1]
      by_cases q1 : t.sh.sh_type = 14 <;> by_cases q2 : n = b!".init" <;> by_cases q3 : n = b!".fini" <;>
        simp [SectionHeader.toSpec, SHT_INIT_ARRAY, q1, q2, q3]
    · rw [i2]
      by_cases q1 : t.sh.sh_type = 14 <;> by_cases q2 : n = b!".init" <;> by_cases q3 : n = b!".fini" <;>
        simp [SectionHeader.toSpec, SHT_INIT_ARRAY, q1, q2, q3]
    · rw [i3]
      by_cases q1 : t.sh.sh_type = 15 <;> by_cases q2 : n = b!".init" <;> by_cases q3 : n = b!".fini" <;>
        simp [SectionHeader.toSpec, SHT_FINI_ARRAY, q1, q2, q3]
    · rw [i4]
      by_cases q1 : t.sh.sh_type = 15 <;> by_cases q2 : n = b!".init" <;> by_cases q3 : n = b!".fini" <;>
        simp [SectionHeader.toSpec, SHT_FINI_ARRAY, q1, q2, q3]
  · intro e he
    rw [h5] at he
    rcases List.mem_append.1 he with he | he
    · rcases List.mem_append.1 he with he | he
      · obtain ⟨n, _, rfl⟩ := List.mem_map.1 he
        simp
      · obtain ⟨t, ht, he⟩ := List.mem_flatMap.1 he
        obtain ⟨e', he', rfl⟩ := List.mem_map.1 he
        have := dynEntriesOf_tags _ _ e' he'
        rw [List.append_assoc]
        exact List.mem_append_right _ this
    · simp only [List.mem_singleton] at he
      subst he; simp
  · intro n hn
    apply (C49_names h).2.1 n
    have : ∀ n ∈ [b!".rela.plt", b!".got.plt", b!".dynstr", b!".dynsym", b!".rela.dyn"], n ∈ ownNames false false := by decide
    unfold ownNames at this ⊢
    exact List.mem_append_left _ (List.mem_append_left _ (by simpa using this n hn))

/-- the demo link has 17 dynamic entries; one of them is the address of `.dynsym` -/
example : ∃ w w' f s, (GoodRun Options.default demoOps Sched.id w w' f s ∧ PlainTypes demoOps) ∧
    ((sectionsNamed f b!".dynamic").map (fun d => (dynsOf (bodyOf f d)).length) == [17] &&
     (sectionsNamed f b!".dynamic").flatMap (fun d => (dynsOf (bodyOf f d)).filter fun e => e.1 == 6) ==
       (sectionsNamed f b!".dynsym").map fun s => (6, s.addr)) = true := by
  obtain ⟨w, w', f, s, h1, h2⟩ := GoodRun.of_runs (opts := Options.default) Sched.id_valid demo_good (P := fun w w' f s =>
    ((sectionsNamed f b!".dynamic").map (fun d => (dynsOf (bodyOf f d)).length) == [17] &&
     (sectionsNamed f b!".dynamic").flatMap (fun d => (dynsOf (bodyOf f d)).filter fun e => e.1 == 6) ==
       (sectionsNamed f b!".dynsym").map fun s => (6, s.addr))) (by decide +kernel)
  exact ⟨w, w', f, s, ⟨h1, demo_plain⟩, h2⟩

theorem not_mem_newlyNeeded {seen : List Name} {ops : List Op} {n : Name} (h : n ∈ seen) : n ∉ newlyNeeded seen ops := by
  induction ops generalizing seen with
  | nil => simp [newlyNeeded]
  | cons op ops ih =>
    cases op with
    | dynsym a m p r => exact ih (List.mem_cons_of_mem _ h)
    | needed m =>
      simp only [newlyNeeded]
      split
      · exact ih h
      · rename_i hm
        intro hn
        rcases List.mem_cons.1 hn with rfl | hn
        · exact hm h
        · exact ih (List.mem_cons_of_mem _ h) hn
    | push => exact ih h
    | sym => exact ih h
    | reloc => exact ih h

theorem newlyNeeded_nodup {seen : List Name} {ops : List Op} : (newlyNeeded seen ops).Nodup := by
  induction ops generalizing seen with
  | nil => simp [newlyNeeded]
  | cons op ops ih =>
    cases op with
    | dynsym a m p r => exact ih
    | needed m =>
      simp only [newlyNeeded]
      split
      · exact ih
      · exact List.nodup_cons.2 ⟨not_mem_newlyNeeded (by simp), ih⟩
    | push => exact ih
    | sym => exact ih
    | reloc => exact ih

theorem mem_newlyNeeded_sub {seen : List Name} {ops : List Op} {n : Name} (h : n ∈ newlyNeeded seen ops) : Op.needed n ∈ ops := by
  induction ops generalizing seen with
  | nil => cases h
  | cons op ops ih =>
    cases op with
    | needed m =>
      simp only [newlyNeeded] at h
      split at h
      · exact List.mem_cons_of_mem _ (ih h)
      · rcases List.mem_cons.1 h with rfl | h
        · simp
        · exact List.mem_cons_of_mem _ (ih h)
    | dynsym a m p r => exact List.mem_cons_of_mem _ (ih h)
    | push => exact List.mem_cons_of_mem _ (ih h)
    | sym => exact List.mem_cons_of_mem _ (ih h)
    | reloc => exact List.mem_cons_of_mem _ (ih h)

/-- a library that is needed and whose file name is not the name of a dynamic symbol is in the list -/
theorem mem_newlyNeeded {seen : List Name} {ops : List Op} {n : Name} (h : Op.needed n ∈ ops) (hs : n ∉ seen)
    (hd : ∀ s p r, Op.dynsym s n p r ∉ ops) : n ∈ newlyNeeded seen ops := by
  induction ops generalizing seen with
  | nil => cases h
  | cons op ops ih =>
    have hd' : ∀ s p r, Op.dynsym s n p r ∉ ops := fun s p r hm => hd s p r (List.mem_cons_of_mem _ hm)
    cases op with
    | needed m =>
      simp only [newlyNeeded]
      by_cases e : n = m
      · subst e; rw [if_neg hs]; simp
      · have h' : Op.needed n ∈ ops := by simpa [e] using h
        split
        · exact ih h' hs hd'
        · exact List.mem_cons_of_mem _ (ih h' (by simp [e, hs]) hd')
    | dynsym a m p r =>
      have e : n ≠ m := fun e => hd a p r (by rw [e]; simp)
      exact ih (by simpa using h) (by simp [e, hs]) hd'
    | push => exact ih (by simpa using h) hs hd'
    | sym => exact ih (by simpa using h) hs hd'
    | reloc => exact ih (by simpa using h) hs hd'

/-- **C52**: reading the `DT_NEEDED` entries of the output gives, in order, the file name of the
dynamic linker and the libraries reported as needed, each the first time it was reported and no name
twice; a library is left out only if its file name was in the dynamic string table before. The first
entry of the dynamic section is the dynamic linker's. -/
theorem C52_needed (h : GoodRun opts ops sched w w' file secs) (hz : ∀ n, Op.needed n ∈ ops → (0 : UInt8) ∉ n)
    (hl : ∀ f ∈ opts.dynamicLinker.file, (0 : UInt8) ∉ f) : ∃ d s f,
    sectionsNamed file b!".dynamic" = [d] ∧ sectionsNamed file b!".dynstr" = [s] ∧ opts.dynamicLinker.file = some f ∧
    neededNames (bodyOf file d) (bodyOf file s) = (f :: newlyNeeded [f, []] ops).map some ∧
    (dynsOf (bodyOf file d)).head?.map (·.1) = some 1 ∧
    (f :: newlyNeeded [f, []] ops).Nodup ∧
    (∀ n, Op.needed n ∈ ops → n ≠ [] → (∀ s p r, Op.dynsym s n p r ∉ ops) → some n ∈ neededNames (bodyOf file d) (bodyOf file s)) := by
  obtain ⟨d, s, f, h1, h2, h3, h4, h5, h6, h7, h8, h9, h10, h11⟩ := h.dyns
  have hn : neededNames (bodyOf file d) (bodyOf file s) = (f :: newlyNeeded [f, []] ops).map some := by
    unfold neededNames
    rw [h11, List.filter_append, List.filter_append]
    have e1 : ((f :: newlyNeeded [f, []] ops).map fun n => (1, nameOff (internAll [[]] (f :: dynNames ops)) n)).filter (fun e => e.1 == 1) =
        (f :: newlyNeeded [f, []] ops).map fun n => (1, nameOff (internAll [[]] (f :: dynNames ops)) n) := by
      rw [List.filter_eq_self]
      intro e he
      obtain ⟨n, _, rfl⟩ := List.mem_map.1 he
      rfl
    have e2 : (secs.flatMap fun t => (dynEntriesOf ((Dld.nameOf w t).getD []) t.sh).map dynPair).filter (fun e => e.1 == 1) = [] := by
      rw [List.filter_eq_nil_iff]
      intro e he
      obtain ⟨t, ht, he⟩ := List.mem_flatMap.1 he
      obtain ⟨e', he', rfl⟩ := List.mem_map.1 he
      have := dynEntriesOf_tags _ _ e' he'
      intro hz
      have hz' : e'.1.toNat = 1 := by simpa [dynPair] using hz
      rw [hz'] at this
      revert this; decide
    have e3 : ([(0, 0)] : List (Nat × Nat)).filter (fun e => e.1 == 1) = [] := rfl
    rw [e1, e2, e3, List.append_nil, List.append_nil, List.map_map]
    apply List.map_congr_left
    intro n hn
    show cstrAt _ _ = some n
    rw [h9]
    refine Holds.cstr h8 (h10 n hn) ?_
    rcases List.mem_cons.1 hn with rfl | hn
    · exact hl _ h7
    · exact hz n (mem_newlyNeeded_sub hn)
  refine ⟨d, s, f, h1, h5, h7, hn, ?_, ?_, ?_⟩
  · rw [h11]; rfl
  · exact List.nodup_cons.2 ⟨not_mem_newlyNeeded (by simp), newlyNeeded_nodup⟩
  · intro n hm hne hd
    rw [hn]
    refine List.mem_map_of_mem ?_
    by_cases e : n = f
    · rw [e]; simp
    · exact List.mem_cons_of_mem _ (mem_newlyNeeded hm (by simp [e, hne]) hd)

/-- the demo link needs the dynamic linker and libc -/
example : ∃ w w' f s, (GoodRun Options.default demoOps Sched.id w w' f s ∧ (∀ n, Op.needed n ∈ demoOps → (0 : UInt8) ∉ n) ∧
      (∀ f ∈ Options.default.dynamicLinker.file, (0 : UInt8) ∉ f)) ∧
    ((sectionsNamed f b!".dynamic").flatMap (fun d => (sectionsNamed f b!".dynstr").flatMap fun s => neededNames (bodyOf f d) (bodyOf f s)) ==
      [some b!"ld-linux-x86-64.so.2", some b!"libc.so.6"]) = true := by
  obtain ⟨w, w', f, s, h1, h2⟩ := GoodRun.of_runs (opts := Options.default) Sched.id_valid demo_good (P := fun w w' f s =>
    ((sectionsNamed f b!".dynamic").flatMap (fun d => (sectionsNamed f b!".dynstr").flatMap fun s => neededNames (bodyOf f d) (bodyOf f s)) ==
      [some b!"ld-linux-x86-64.so.2", some b!"libc.so.6"])) (by decide +kernel)
  refine ⟨w, w', f, s, ⟨h1, ?_, ?_⟩, h2⟩
  · intro n hn
    have : n = b!"libc.so.6" := by simpa [demoOps] using hn
    rw [this]; decide
  · intro f hf
    cases hf; decide

/-! ### C70 -/

theorem baseIdents_hash (hs : HashStyle) : (P.hash ∈ (baseIdents hs).map (·.1) ↔ hs.wantsSysv = true) ∧
    (P.gnuHash ∈ (baseIdents hs).map (·.1) ↔ hs.wantsGnu = true) := by cases hs <;> decide

/-- **C70**: with the style `sysv` the output has one `.hash` section, the only section of type
`SHT_HASH` (5), and no `.gnu.hash` section or section of type `SHT_GNU_HASH` (0x6ffffff6); with `gnu`
the other way round; with `both`, the default, it has both. The dynamic section has `DT_HASH` (4) and
`DT_GNU_HASH` (0x6ffffef5) entries exactly for the tables that are there. -/
theorem C70_hash_style (h : GoodRun opts ops sched w w' file secs) (hpt : PlainTypes ops) :
    (∀ x ∈ ([(b!".hash", 5, 4, opts.hashStyle != .gnu), (b!".gnu.hash", 0x6ffffff6, 0x6ffffef5, opts.hashStyle != .sysv)] : List (Name × Nat × Nat × Bool)),
      (shdrs file).filter (fun s => s.type == x.2.1) = sectionsNamed file x.1 ∧
      (sectionsNamed file x.1).length = (if x.2.2.2 then 1 else 0) ∧
      ∃ d, sectionsNamed file b!".dynamic" = [d] ∧
        (dynsOf (bodyOf file d)).filter (fun e => e.1 == x.2.2.1) = (sectionsNamed file x.1).map fun s => (x.2.2.1, s.addr)) ∧
    Options.default.hashStyle = .both := by
  refine ⟨?_, rfl⟩
  have hr := h.run.reads h.good h.names h.fit
  obtain ⟨d, hd, _, _, _, _, htags, _⟩ := C51_dynamic h hpt
  have hcnt : ∀ p : Nat, p < P.first → p ≠ P.null → (p ∈ (baseIdents opts.hashStyle).map (·.1) → (sectionsNamed file (ptrName p)).length = 1) ∧
      (ptrName p ∉ ownNames opts.hashStyle.wantsSysv opts.hashStyle.wantsGnu → (sectionsNamed file (ptrName p)).length = 0) := by
    intro p hp h0
    refine ⟨fun hm => ?_, fun hm => ?_⟩
    · obtain ⟨t, _, _, e⟩ := h.own hm
      rw [e]; rfl
    · rw [(C49_names h).2.2.2 _ hm]
      · rfl
      · intro sh d r hpush
        exact h.good.clean.names _ sh d r hpush (ptrName_reserved p hp h0)
  have htype : ∀ (ty p : Nat), p < P.first → (∀ t ∈ secs, t.sh.sh_type = ty ↔ t.ptr = p) →
      (shdrs file).filter (fun s => s.type == ty) = sectionsNamed file (ptrName p) := by
    intro ty p hp hiff
    rw [hr.shdrs, List.filter_map, h.named]
    congr 1
    apply List.filter_congr
    intro t ht
    have h1 := hiff t ht
    have h2 := h.run.name_own h.good h.names ht hp
    apply Bool.eq_iff_iff.2
    show (t.sh.sh_type == ty) = true ↔ _
    simp only [beq_iff_eq]
    exact h1.trans h2.symm
  intro x hx
  simp only [List.mem_cons, List.not_mem_nil, or_false] at hx
  rcases hx with rfl | rfl
  · refine ⟨htype 5 P.hash (by decide) fun t ht => (h.run.type_own h.good hpt ht).2.2.1, ?_, d, hd, htags (4, b!".hash", (·.addr)) (by simp [sectionTags])⟩
    cases hh : opts.hashStyle with
    | sysv => exact (hcnt P.hash (by decide) (by decide)).1 (by rw [hh]; decide)
    | gnu => exact (hcnt P.hash (by decide) (by decide)).2 (by rw [hh]; decide)
    | both => exact (hcnt P.hash (by decide) (by decide)).1 (by rw [hh]; decide)
  · refine ⟨htype 0x6ffffff6 P.gnuHash (by decide) fun t ht => (h.run.type_own h.good hpt ht).2.2.2, ?_, d, hd,
      htags (0x6ffffef5, b!".gnu.hash", (·.addr)) (by simp [sectionTags])⟩
    cases hh : opts.hashStyle with
    | sysv => exact (hcnt P.gnuHash (by decide) (by decide)).2 (by rw [hh]; decide)
    | gnu => exact (hcnt P.gnuHash (by decide) (by decide)).1 (by rw [hh]; decide)
    | both => exact (hcnt P.gnuHash (by decide) (by decide)).1 (by rw [hh]; decide)

/-- the demo link in the style `gnu` -/
example : ∃ w w' f s, (GoodRun { Options.default with hashStyle := .gnu } demoOps Sched.id w w' f s ∧ PlainTypes demoOps) ∧
    ((sectionsNamed f b!".hash").length == 0 && (sectionsNamed f b!".gnu.hash").length == 1) = true := by
  obtain ⟨w, w', f, s, h1, h2⟩ := GoodRun.of_runs (opts := { Options.default with hashStyle := .gnu }) Sched.id_valid demo_good (P := fun w w' f s =>
    ((sectionsNamed f b!".hash").length == 0 && (sectionsNamed f b!".gnu.hash").length == 1)) (by decide +kernel)
  exact ⟨w, w', f, s, ⟨h1, demo_plain⟩, h2⟩

/-! ### C82: references between sections -/

/-- **C82**, the part that holds: `sh_link` of the writer's own tables is the index of the table they
refer to; it is 0 for its other sections, and for all other sections if it was 0 in the inputs.
What is missing: sections copied from the inputs keep the `sh_link` of the first input, an index into
the input's section table (`C82_links_violated`). -/
theorem C82_links_partial (h : GoodRun opts ops sched w w' file secs) (hin : ∀ n sh d r, Op.push n sh d r ∈ ops → sh.sh_link = 0) :
    (∀ x ∈ linkTable, ∀ s ∈ sectionsNamed file x.1, ∃ l, (shdrs file)[s.link]? = some l ∧ sectionsNamed file x.2 = [l]) ∧
    (∀ s ∈ shdrs file, (∀ x ∈ linkTable, Spec.nameOf file s ≠ some x.1) → s.link = 0) := by
  have hr := h.run.reads h.good h.names h.fit
  have hlinks : ∀ x ∈ linkTable, ∃ p q, p < P.first ∧ q ∈ (baseIdents opts.hashStyle).map (·.1) ∧ ptrName p = x.1 ∧ ptrName q = x.2 ∧
      (ownOrigin p).2.1 = some q := by
    intro x hx
    simp only [linkTable, List.mem_cons, List.not_mem_nil, or_false] at hx
    rcases hx with rfl | rfl | rfl | rfl | rfl | rfl | rfl
    · exact ⟨P.sym, P.symstr, by decide, base_has _ _ (by simp), rfl, rfl, rfl⟩
    · exact ⟨P.dynsym, P.dynstr, by decide, base_has _ _ (by simp), rfl, rfl, rfl⟩
    · exact ⟨P.dynamic, P.dynstr, by decide, base_has _ _ (by simp), rfl, rfl, rfl⟩
    · exact ⟨P.relaDyn, P.dynsym, by decide, base_has _ _ (by simp), rfl, rfl, rfl⟩
    · exact ⟨P.relaPlt, P.dynsym, by decide, base_has _ _ (by simp), rfl, rfl, rfl⟩
    · exact ⟨P.hash, P.dynsym, by decide, base_has _ _ (by simp), rfl, rfl, rfl⟩
    · exact ⟨P.gnuHash, P.dynsym, by decide, base_has _ _ (by simp), rfl, rfl, rfl⟩
  refine ⟨?_, ?_⟩
  · intro x hx s hs
    obtain ⟨p, q, hp, hq, ep, eq, ho⟩ := hlinks x hx
    rw [h.named, ← ep] at hs
    obtain ⟨t, ht, rfl⟩ := List.mem_map.1 hs
    obtain ⟨ht, hn⟩ := List.mem_filter.1 ht
    have htp : t.ptr = p := (h.run.name_own h.good h.names ht hp).1 (by simpa using hn)
    have hk := (h.run.known h.good.flags ht).own (by rw [htp]; exact hp)
    have hl : t.link = some q := by
      have : t.link = (ownOrigin t.ptr).2.1 := congrArg (·.2.1) hk
      rw [this, htp, ho]
    have := h.run.link h.good.flags ht
    rw [hl] at this
    obtain ⟨i, l, hi, hlp, he⟩ := this
    have hlt : i < secs.length := (List.getElem?_eq_some_iff.1 hi).1
    have hi32 : u32 i = i := Nat.mod_eq_of_lt (by have := h.fit.count; omega)
    refine ⟨l.sh.toSpec, ?_, ?_⟩
    · show (shdrs file)[t.sh.sh_link]? = _
      rw [he, hi32, hr.shdrs, List.getElem?_map, hi]; rfl
    · obtain ⟨t', ht', hp', e⟩ := h.own hq
      rw [← eq, e]
      have : t' = l := eq_of_ptr (h.run.ptrs_nodup h.good.flags) ht' (List.mem_of_getElem? hi) (by rw [hp', hlp])
      rw [this]
  · intro s hs hx
    rw [hr.shdrs] at hs
    obtain ⟨t, ht, rfl⟩ := List.mem_map.1 hs
    rw [h.run.reads_name h.good h.clean h.names h.fit ht] at hx
    have hlk := h.run.link h.good.flags ht
    cases hl : t.link with
    | none =>
      rw [hl] at hlk
      rcases hlk.2 with e | ⟨n, sh, d, r, hm, e⟩
      · exact e
      · show t.sh.sh_link = 0
        rw [e]; exact hin n sh d r hm
    | some q =>
      exfalso
      have hk := h.run.known h.good.flags ht
      by_cases hp : t.ptr < P.first
      · have ho := hk.own hp
        have h1 : t.link = (ownOrigin t.ptr).2.1 := congrArg (·.2.1) ho
        have h2 : ∀ p < P.first, (ownOrigin p).2.1 ≠ none → ∃ x ∈ linkTable, ptrName p = x.1 := by decide
        obtain ⟨x, hx1, hx2⟩ := h2 t.ptr hp (by rw [← h1, hl]; simp)
        exact hx x hx1 (by rw [← hx2]; exact (h.run.name_own h.good h.names ht hp).2 rfl)
      · rcases hk with hk | ⟨_, _, h2, _⟩
        · obtain ⟨b, hb, e⟩ := List.mem_map.1 hk
          have := (baseIdents_ptr opts.hashStyle).2 b.1 (List.mem_map_of_mem hb)
          have e3 : t.ptr = b.1 := (congrArg (·.1) e).symm
          omega
        · rw [hl] at h2; cases h2

/-- the demo link: `sh_link` of `.dynamic` is the index of `.dynstr` -/
example : ∃ w w' f s, (GoodRun Options.default demoOps Sched.id w w' f s ∧ (∀ n sh d r, Op.push n sh d r ∈ demoOps → sh.sh_link = 0)) ∧
    ((sectionsNamed f b!".dynamic").flatMap (fun d => ((shdrs f)[d.link]?.bind (Spec.nameOf f)).toList) == [b!".dynstr"]) = true := by
  obtain ⟨w, w', f, s, h1, h2⟩ := GoodRun.of_runs (opts := Options.default) Sched.id_valid demo_good (P := fun w w' f s =>
    ((sectionsNamed f b!".dynamic").flatMap (fun d => ((shdrs f)[d.link]?.bind (Spec.nameOf f)).toList) == [b!".dynstr"])) (by decide +kernel)
  refine ⟨w, w', f, s, ⟨h1, fun n sh d r hm => ?_⟩, h2⟩
  have := pushesAll_iff (P := fun _ sh _ => sh.sh_link == 0) (by decide +kernel) n sh d r hm
  simpa using this

/-- an object with a section group (type 17): its `sh_link`, 5, is the index of the symbol table in that object -/
def groupOps : List Op :=
  demoOps ++ [.push b!".group" { sh_type := 17, sh_size := 8, sh_addralign := 4, sh_link := 5, sh_info := 1, sh_entsize := 4 } (some [1, 0, 0, 0, 6, 0, 0, 0]) ⟨20, 0⟩]

/-- **C82** is violated: the output has a section group whose `sh_link` is the index its input used,
which in the output is not the symbol table. -/
theorem C82_links_violated : ∃ w w' f s, GoodRun Options.default groupOps Sched.id w w' f s ∧
    ∃ g l, g ∈ sectionsNamed f b!".group" ∧ g.type = 17 ∧ (shdrs f)[g.link]? = some l ∧ l.type ≠ 2 := by
  obtain ⟨w, w', f, s, h1, h2⟩ := GoodRun.of_runs (opts := Options.default) (ops := groupOps) Sched.id_valid (by decide +kernel) (P := fun w w' f s =>
    ((sectionsNamed f b!".group").any fun g => g.type == 17 && match (shdrs f)[g.link]? with | some l => l.type != 2 | none => false))
    (by decide +kernel)
  refine ⟨w, w', f, s, h1, ?_⟩
  rw [List.any_eq_true] at h2
  obtain ⟨g, hg, h2⟩ := h2
  rw [Bool.and_eq_true] at h2
  cases hl : (shdrs f)[g.link]? with
  | none => rw [hl] at h2; cases h2.2
  | some l =>
    rw [hl] at h2
    exact ⟨g, l, hg, by simpa using h2.1, hl, by simpa using h2.2⟩

end Dld
