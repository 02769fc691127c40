import Verif.Lemmas.Progress6
/-! # The rest of a link succeeds -/
namespace Dld
open Writer Spec StringTable

variable {opts : Options} {ops : List Op} {sched : Sched} {w w' : Writer}

/-! ### The number of program headers -/

theorem filter_gt_lt {F : List Nat} {f g : Nat} (hg : g ∈ F) (h : f < g) :
    (F.filter fun x => decide (g < x)).length < (F.filter fun x => decide (f < x)).length := by
  induction F with
  | nil => cases hg
  | cons a F ih =>
    have mono : (F.filter fun x => decide (g < x)).length ≤ (F.filter fun x => decide (f < x)).length := by
      clear ih hg
      induction F with
      | nil => simp
      | cons b F ih =>
        by_cases h1 : g < b
        · rw [List.filter_cons_of_pos (by simpa using h1), List.filter_cons_of_pos (by simp; omega)]
          simpa using ih
        · rw [List.filter_cons_of_neg (by simpa using h1)]
          by_cases h2 : f < b
          · rw [List.filter_cons_of_pos (by simpa using h2), List.length_cons]; omega
          · rw [List.filter_cons_of_neg (by simpa using h2)]; exact ih
    by_cases e : a = g
    · subst e
      rw [List.filter_cons_of_neg (by simp), List.filter_cons_of_pos (by simpa using h), List.length_cons]
      omega
    · have ih := ih ((List.mem_cons.1 hg).resolve_left fun x => e x.symm)
      by_cases h1 : g < a
      · rw [List.filter_cons_of_pos (by simpa using h1), List.filter_cons_of_pos (by simp; omega)]
        simpa using ih
      · rw [List.filter_cons_of_neg (by simpa using h1)]
        by_cases h2 : f < a
        · rw [List.filter_cons_of_pos (by simpa using h2), List.length_cons]; omega
        · rw [List.filter_cons_of_neg (by simpa using h2)]; exact ih

theorem countLoads_zero {l : List Section} (h : ∀ s ∈ l, s.sh.sh_flags = 0) : countLoads 0 l = 0 := by
  induction l with
  | nil => rfl
  | cons s l ih =>
    rw [countLoads, if_neg (by simp [h s (by simp)]), ih fun s hs => h s (by simp [hs])]

/-- there are not more segments than different flags -/
theorem countLoads_flags {F : List Nat} : ∀ {l : List Section} {f : Nat}, (l.map (·.sh.sh_flags)).Pairwise flagsLe →
    (∀ s ∈ l, s.sh.sh_flags ∈ F) → (∀ s ∈ l, s.sh.sh_flags = 0 ∨ f ≤ s.sh.sh_flags) → countLoads f l ≤ (F.filter fun x => decide (f < x)).length := by
  intro l
  induction l with
  | nil => intro f _ _ _; simp [countLoads]
  | cons s l ih =>
    intro f hp hF hf
    rw [List.map_cons, List.pairwise_cons] at hp
    rw [countLoads]
    split
    · rename_i hne
      rcases hf s (by simp) with h0 | h0
      · rw [h0, countLoads_zero fun t ht => ?_]
        · have : hasFlag 0 SHF_ALLOC = false := by decide
          rw [this]; simp
        · have := hp.1 _ (List.mem_map.2 ⟨t, ht, rfl⟩)
          rw [h0] at this
          rcases this with h | h
          · exact h
          · exact absurd rfl h.1
      · have h1 := ih (f := s.sh.sh_flags) hp.2 (fun t ht => hF t (by simp [ht])) fun t ht => by
          rcases hp.1 _ (List.mem_map.2 ⟨t, ht, rfl⟩) with h | h
          · exact .inl h
          · exact .inr h.2
        have h2 := filter_gt_lt (hF s (by simp)) (show f < s.sh.sh_flags by omega)
        split <;> omega
    · exact ih hp.2 (fun t ht => hF t (by simp [ht])) fun t ht => hf t (by simp [ht])

theorem Writer.Early.headers (st : Early sched w) (hv : sched.Valid) (h : Hist opts ops w) (hf : FlagsOk ops) (hd : NoDynamicPush ops) (hn : NamesFit w)
    {F : List Nat} (hF : ∀ n sh d r, Op.push n sh d r ∈ ops → sh.sh_flags ∈ F) :
    st.placed.programHeaders.length ≤ F.length + 7 ∧ st.placed.programHeaders ≠ [] := by
  obtain ⟨w0, pn, h0, hI⟩ := h.winv
  have hsf := h.secFacts
  have hr := st.ready hv hsf hf
  obtain ⟨_, p2, _⟩ := st.placed_eq h.untouched
  have htag : ((st.sorted.sections.drop 1).map tag).Perm ((w.sections.drop 1).map tag) := by
    have := (sortSecs_perm hv st.hsort (F := tag) (fun _ _ => rfl)).2
    rw [List.map_drop (l := st.dynamic.sections), st.dynamic_tag hsf.known, ← List.map_drop] at this
    exact this
  -- the sections with headers of their own
  have hpt : ∀ s ∈ w.sections.drop 1, (pType (w.shstr.name s.sh.sh_name == some b!".interp") s.sh).isSome = (s.ptr == P.dynamic || s.ptr == P.interp) := by
    intro s hs
    have hs := List.mem_of_mem_drop hs
    have h1 := (hsf.known s hs).dynamic_type hd
    have h2 := hI.name_iff h0 hn hs (base_has _ P.interp (by simp))
    rw [show ptrName P.interp = b!".interp" from rfl] at h2
    unfold nameOf at h2
    unfold pType
    by_cases e1 : s.sh.sh_type = SHT_DYNAMIC
    · rw [if_pos e1]
      simp [h1.1 e1]
    · rw [if_neg e1]
      have e1' : s.ptr ≠ P.dynamic := fun e => e1 (h1.2 e)
      by_cases e2 : w.shstr.name s.sh.sh_name = some b!".interp"
      · rw [if_pos (by simpa using e2)]
        simp [h2.1 e2]
      · rw [if_neg (by simpa using e2)]
        have e2' : s.ptr ≠ P.interp := fun e => e2 (h2.2 e)
        simp [e1', e2']
  have hcnt : ((st.sorted.sections.drop 1).filter fun s => (pType (w.shstr.name s.sh.sh_name == some b!".interp") s.sh).isSome).length = 2 := by
    have e1 : ∀ l : List Section, (l.filter fun s => (pType (w.shstr.name s.sh.sh_name == some b!".interp") s.sh).isSome).length =
        (l.map tag).countP fun t => if t.2.2.2.2.1 = SHT_DYNAMIC then true else w.shstr.name t.2.2.2.1 == some b!".interp" := by
      intro l
      rw [← List.countP_eq_length_filter, List.countP_map]
      congr 1
      funext s
      show (pType _ s.sh).isSome = if s.sh.sh_type = SHT_DYNAMIC then true else w.shstr.name s.sh.sh_name == some b!".interp"
      unfold pType
      by_cases q1 : s.sh.sh_type = SHT_DYNAMIC
      · rw [if_pos q1, if_pos q1]; rfl
      · rw [if_neg q1, if_neg q1]
        cases (w.shstr.name s.sh.sh_name == some b!".interp") <;> rfl
    rw [e1, htag.countP_eq, ← e1, List.filter_congr hpt]
    obtain ⟨null, rest, hw, hnull⟩ := hsf.head
    have hnd := hsf.nodup
    obtain ⟨a, ha, hap⟩ := hsf.rest_has (base_has opts.hashStyle P.dynamic (by simp)) (by decide)
    obtain ⟨b, hb, hbp⟩ := hsf.rest_has (base_has opts.hashStyle P.interp (by simp)) (by decide)
    have hnd' : ((w.sections.drop 1).map (·.ptr)).Nodup := hnd.sublist ((List.drop_sublist 1 _).map _)
    have split2 : ∀ l : List Section, (l.filter fun s => s.ptr == P.dynamic || s.ptr == P.interp).length =
        (l.filter fun s => s.ptr == P.dynamic).length + (l.filter fun s => s.ptr == P.interp).length := by
      intro l
      induction l with
      | nil => rfl
      | cons s l ih =>
        by_cases q1 : s.ptr = P.dynamic
        · simp [List.filter_cons, q1, ih, show (P.dynamic == P.interp) = false from rfl]; omega
        · by_cases q2 : s.ptr = P.interp
          · simp [List.filter_cons, q2, ih, show (P.interp == P.dynamic) = false from rfl]; omega
          · simp [List.filter_cons, q1, q2, ih]
    rw [split2, count_ptr hnd' ha hap, count_ptr hnd' hb hbp]
    rfl
  have hlen := hr.phs_length (isInterp := fun sh => w.shstr.name sh.sh_name == some b!".interp") (phentsize := sizeofProgramHeader) (v0 := 0x200000)
    hcnt (fun _ _ _ => rfl)
  have hcl : countLoads 0 (st.sorted.sections.drop 1) ≤ ((F ++ [0, 2, 3, 6]).filter fun x => decide (0 < x)).length := by
    refine countLoads_flags hr.sorted ?_ fun s _ => .inr (by omega)
    intro s hs
    have : tag s ∈ (w.sections.drop 1).map tag := htag.mem_iff.1 (List.mem_map_of_mem hs)
    obtain ⟨t, ht, he⟩ := List.mem_map.1 this
    have he : s.sh.sh_flags = t.sh.sh_flags := (congrArg (·.2.2.2.2.2.1) he).symm
    rw [he, List.mem_append]
    rcases hsf.known t (List.mem_of_mem_drop ht) with hk | ⟨_, _, _, n, sh, d, r, h1, _, _, h2, _⟩
    · right
      have hk := origins_cases hk
      simp only [Section.origin, Prod.mk.injEq] at hk
      simp only [List.mem_cons, List.not_mem_nil, or_false]
      omega
    · left
      rw [h2]
      exact hF n sh d r h1
  have hfl : ((F ++ [0, 2, 3, 6]).filter fun x => decide (0 < x)).length ≤ F.length + 3 := by
    rw [List.filter_append, List.length_append]
    have := List.length_filter_le (fun x => decide (0 < x)) F
    have e : ([0, 2, 3, 6].filter fun x => decide (0 < x)).length = 3 := by decide
    omega
  rw [p2]
  refine ⟨?_, by simp⟩
  rw [List.length_cons, hlen, countProgramHeaders]
  omega

/-! ### The tables, the header, and the file -/

theorem modSec_ptrs (x : Writer) (p : Nat) (f : Section → Section) (hf : ∀ s, (f s).ptr = s.ptr) : (x.modSec p f).sections.map (·.ptr) = x.sections.map (·.ptr) :=
  modSec_map (F := (·.ptr)) fun s _ => hf s

theorem modSec_addChunk_ptrs (x : Writer) (p : Nat) (d : Bytes) :
    (x.modSec p (·.addChunk d)).sections.map (·.ptr) = x.sections.map (·.ptr) :=
  modSec_ptrs _ _ _ fun _ => rfl

theorem computeTables_progress {x : Writer} (h : ∀ p ∈ [P.got, P.gotPlt, P.copyRel], p ∈ x.sections.map (·.ptr)) : ∃ y, x.computeTables = .ok y := by
  generalize h4 : (((x.modSec P.shstr (·.addChunk x.shstr.chunk)).modSec P.symstr (·.addChunk x.symstr.chunk)).modSec P.dynstr (·.addChunk x.dynstr.chunk)).modSec
    P.dynamic (·.addChunk (serVec serDyn x.dynEntries)) = x4
  have hp : x4.sections.map (·.ptr) = x.sections.map (·.ptr) := by
    rw [← h4]
    rw [modSec_addChunk_ptrs, modSec_addChunk_ptrs, modSec_addChunk_ptrs, modSec_addChunk_ptrs]
  obtain ⟨a, _, _, ha⟩ := sec_exists (w := x4) (p := P.got) (by rw [hp]; exact h _ (by simp))
  obtain ⟨b, _, _, hb⟩ := sec_exists (w := x4) (p := P.gotPlt) (by rw [hp]; exact h _ (by simp))
  obtain ⟨c, _, _, hc⟩ := sec_exists (w := x4) (p := P.copyRel) (by rw [hp]; exact h _ (by simp))
  have key : ∀ y : Writer, y = x4 → ∃ z, (do
      let gotSec ← y.sec P.got
      let gotPltSec ← y.sec P.gotPlt
      let copyRelSec ← y.sec P.copyRel
      let rebase := rebaseRela gotSec.sh.sh_addr gotPltSec.sh.sh_addr copyRelSec.sh.sh_addr
      let y := { y with dynRels := y.dynRels.map rebase, pltRels := y.pltRels.map rebase }
      let y := y.modSec P.relaDyn (·.addChunk (serVec serRela y.dynRels))
      .ok (y.modSec P.relaPlt (·.addChunk (serVec serRela y.pltRels))) : M Writer) = .ok z := by
    rintro y rfl
    rw [ha]
    simp only [ok_bind]
    rw [hb]
    simp only [ok_bind]
    rw [hc]
    exact ⟨_, rfl⟩
  obtain ⟨z, hz⟩ := key _ h4
  exact ⟨z, hz⟩

theorem finishHeader_progress {x : Writer} (hs : ∀ e, x.symstr.get b!"_start" = some e → (x.symtab.get (.named (u32 e.offset))).isSome)
    (hp : P.shstr ∈ x.sections.map (·.ptr)) (hh : x.programHeaders ≠ []) (hl : u16 x.programHeaders.length * x.eh.e_phentsize < 65536) :
    ∃ y, x.finishHeader = .ok y := by
  obtain ⟨s, _, _, hsec⟩ := sec_exists hp
  obtain ⟨ph, phs, hph⟩ := List.exists_cons_of_ne_nil hh
  have tail : ∀ entry : Nat, ∃ y, (do
      let shstrSec ← x.sec P.shstr
      let eh := { x.eh with e_entry := entry, e_shnum := u16 x.sections.length, e_phnum := u16 x.programHeaders.length, e_shstrndx := u16 shstrSec.index, e_shoff := x.fileOffset }
      match x.programHeaders with
      | [] => .error .panic
      | ph :: phs =>
        if eh.e_phnum * eh.e_phentsize ≥ 65536 then .error .panic
        else
          let size := eh.e_phnum * eh.e_phentsize
          let ph := { ph with
            p_offset := eh.e_phoff, p_memsz := size, p_filesz := size
            p_vaddr := eh.e_phoff + x.startPVaddr, p_paddr := eh.e_phoff + x.startPVaddr }
          .ok { x with eh, programHeaders := ph :: phs } : M Writer) = .ok y := by
    intro entry
    rw [hsec]
    simp only [ok_bind]
    rw [hph] at hl ⊢
    simp only
    rw [if_neg (by omega)]
    exact ⟨_, rfl⟩
  unfold finishHeader
  cases hst : x.symstr.get b!"_start" with
  | none => exact tail _
  | some e =>
    obtain ⟨y, hy⟩ := Option.isSome_iff_exists.1 (hs e hst)
    simp only [hy]
    exact tail y.sym.st_value

theorem finalizeSec_progress {x : Writer} {s : Section} (hk : s.kind = .symtab ∨ s.kind = .dynsym → s.chunks ≠ []) (hl : ∀ p, s.link = some p → p ∈ x.sections.map (·.ptr)) :
    ∃ t, finalizeSec sched x s = .ok t := by
  have hmod : ∀ f, s.chunks ≠ [] → ∃ t, s.modifyChunk 0 f = .ok t ∧ t.link = s.link := by
    intro f hne
    unfold Section.modifyChunk
    rw [if_pos (List.length_pos_iff.2 hne)]
    exact ⟨_, rfl, rfl⟩
  have tail : ∀ t : Section, t.link = s.link → ∃ u, (match t.link with
      | none => .ok t
      | some p => do
        let l ← x.sec p
        .ok { t with sh := { t.sh with sh_link := u32 l.index } } : M Section) = .ok u := by
    intro t ht
    rw [ht]
    cases h : s.link with
    | none => exact ⟨_, rfl⟩
    | some p =>
      obtain ⟨l, _, _, e⟩ := sec_exists (hl p h)
      simp only
      rw [e]
      exact ⟨_, rfl⟩
  unfold finalizeSec
  cases hkk : s.kind
  case symtab =>
    obtain ⟨t, h1, h2⟩ := hmod (fun _ => { data := x.symtab.chunk sched.symIter }) (hk (.inl hkk))
    simp only [h1, ok_bind]
    exact tail t h2
  case dynsym =>
    obtain ⟨t, h1, h2⟩ := hmod (fun _ => { data := x.dynsym.chunk sched.dynIter }) (hk (.inr hkk))
    simp only [h1, ok_bind]
    exact tail t h2
  all_goals exact tail _ rfl

theorem writeSections_progress {x : Writer} : ∀ {l : List Section} {o : Nat}, (∀ s ∈ l, ∃ t, finalizeSec sched x s = .ok t) → ∃ r, writeSections sched x o l = .ok r := by
  intro l
  induction l with
  | nil => intro o _; exact ⟨_, rfl⟩
  | cons s l ih =>
    intro o h
    obtain ⟨t, ht⟩ := h s (by simp)
    rw [writeSections]
    simp only [ht, ok_bind]
    obtain ⟨r, hr⟩ := ih (o := max o s.sh.sh_offset + t.sizeOnDisk) fun s hs => h s (by simp [hs])
    rw [hr]
    exact ⟨_, rfl⟩

end Dld
