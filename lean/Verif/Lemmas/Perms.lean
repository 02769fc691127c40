import Verif.Lemmas.Run
/-! # Where the permissions of the segments come from -/
namespace Dld
open Writer Spec
variable {opts : Options} {ops : List Op} {sched : Sched} {w w' : Writer} {file : Bytes} {secs : List Section}

/-- the permissions of every segment are those of an allocated section placed so far -/
def FInv (st : LayoutState) (pl : List Section) : Prop :=
  ∀ ph ∈ st.loads, ∃ s ∈ pl, s.alloc = true ∧ ph.p_flags = segPerm s.sh.sh_flags

theorem FInv.step {v0 hdr : Nat} {isInterp : SectionHeader → Bool} {st : LayoutState} {pl : List Section} {s : Section}
    (hI : LInv v0 hdr st pl) (hF : FInv st pl) :
    FInv (layoutStep isInterp st s).1 (pl ++ [(layoutStep isInterp st s).2]) := by
  rw [layoutStep_eq]
  intro ph hph
  simp only at hph ⊢
  rw [loads_addSpecial (specialOf_isLoad _ _ _)] at hph
  have old : ∀ q ∈ st.loads, ∃ t ∈ pl ++ [(placeSection st s).2], t.alloc = true ∧ q.p_flags = segPerm t.sh.sh_flags := by
    intro q hq
    obtain ⟨t, ht, h⟩ := hF q hq
    exact ⟨t, List.mem_append_left _ ht, h⟩
  have hx : st.extra = none ∨ st.fileOffset = 0 := by
    by_cases hp : pl = []
    · right; rw [hI.start hp]
    · exact .inl (hI.going hp).1
  have hfl := filter_load_append hI rfl
  by_cases hf : s.sh.sh_flags = st.flags
  · cases hc : st.cur with
    | none => rw [(placeSection_same_none hf hc).1] at hph; exact old ph hph
    | some q =>
      rw [(placeSection_same hf hc).1] at hph
      simp only [LayoutState.loads, Option.toList_some, List.mem_append, List.mem_singleton] at hph
      rcases hph with h | rfl
      · exact old ph (by simp only [LayoutState.loads]; exact List.mem_append_left _ h)
      · exact old q (by simp [LayoutState.loads, hc])
  · cases ha : s.alloc with
    | false =>
      rw [(placeSection_plain hf ha).1] at hph
      simp only [LayoutState.loads, Option.toList_none, List.append_nil] at hph
      rw [hfl] at hph
      exact old ph hph
    | true =>
      have hc := placeSection_core st s
      rw [(placeSection_new hx hf ha).1, loads_of_cur rfl, hfl] at hph
      rcases List.mem_append.1 hph with h | h
      · exact old ph h
      · rw [List.mem_singleton] at h
        refine ⟨(placeSection st s).2, by simp, by rw [hc.alloc, ha], ?_⟩
        rw [h, hc.flags]

theorem FInv.loop {v0 hdr : Nat} {isInterp : SectionHeader → Bool} {l : List Section} :
    ∀ {st : LayoutState} {pl : List Section}, LInv v0 hdr st pl → FInv st pl →
    (pl = [] → ∀ s ∈ l.head?, s.alloc = true) →
    ((pl ++ l).map (·.sh.sh_flags)).Pairwise flagsLe →
    FInv (layoutLoop isInterp st l).1 (pl ++ (layoutLoop isInterp st l).2) := by
  induction l with
  | nil => intro st pl _ hS _ _; simpa [layoutLoop] using hS
  | cons s l ih =>
    intro st pl hI hS hfirst hs
    have hg := fun hne => FlagsSorted.group hs hI.flags hne
    have h1 := hI.step isInterp (s := s) (fun hp => hfirst hp s (by simp)) hg
    have h2 := ih h1 (hS.step hI) (fun h => by simp at h) (by
      simpa [(layoutStep_core isInterp st s).flags] using hs)
    simpa [layoutLoop, List.append_assoc] using h2

theorem Ready.finv {isInterp : SectionHeader → Bool} {phentsize v0 : Nat} {secs : List Section} (h : Ready secs) :
    FInv (finalState isInterp phentsize v0 secs).1 (finalState isInterp phentsize v0 secs).2 := by
  have := FInv.loop (isInterp := isInterp)
    (LInv.init v0 (countProgramHeaders secs * phentsize + sizeofHeader)) (by intro ph hph; simp [LayoutState.loads] at hph)
    (l := secs.drop 1) (fun _ => h.head) (by simpa using h.sorted)
  rw [List.nil_append] at this
  exact this

/-- the segments of the finished file have the permissions of an allocated section -/
theorem Writer.Stages.perms (hv : sched.Valid) (st : Stages sched w) {hs : HashStyle} {ops : List Op}
    (hsf : SecFacts hs ops w) (hu : Untouched w) (hf : FlagsOk ops) :
    ∀ ph ∈ st.final.programHeaders, ph.p_type = PT_LOAD →
      ∃ s ∈ st.final.sections, s.alloc = true ∧ ph.p_flags = segPerm s.sh.sh_flags := by
  have hr := st.ready hv hsf hf
  obtain ⟨p1, p2, p3, p4⟩ := st.placed_eq hu
  obtain ⟨f1, f2, f3, f4, f5, f6, f7, f8, f9, f10, f11⟩ := st.final_post
  obtain ⟨entry, s, ph0, phs, h1, h2, _, _, h3, h4⟩ := finishHeader_ok st.hfinal
  have hdrop : (st.final.sections.drop 1).map post =
      (finalState (fun sh => w.shstr.name sh.sh_name == some b!".interp") sizeofProgramHeader 0x200000 st.sorted.sections).2.map post := by
    rw [List.map_drop, f1, ← List.map_drop, p1]
    have : (st.sorted.sections.take 1).length = 1 := by
      have := hr.nonempty
      cases hl : st.sorted.sections with
      | nil => rw [hl] at this; simp at this
      | cons => simp
    rw [List.drop_append_of_le_length (by omega), List.drop_of_length_le (by omega), List.nil_append]
  have hph : phs =
      (finalState (fun sh => w.shstr.name sh.sh_name == some b!".interp") sizeofProgramHeader 0x200000 st.sorted.sections).1.phs := by
    rw [f2, p2] at h2
    exact (List.cons.inj h2).2.symm
  intro ph hm hty
  obtain ⟨hdr, lst, hl⟩ := st.laid hv hsf hu hf
  obtain ⟨q, hq, hqt, _⟩ := hl.phs
  have e : st.final.programHeaders.drop 1 = phs := by rw [h4]; rfl
  rw [hq, List.drop_one, List.tail_cons] at e
  rw [hq] at hm
  rcases List.mem_cons.1 hm with rfl | hm
  · rw [hqt] at hty; exact absurd hty (by decide)
  · rw [e, hph] at hm
    obtain ⟨t, ht, ha, hp⟩ := hr.finv ph (by
      unfold LayoutState.loads
      exact List.mem_append_left _ (List.mem_filter.2 ⟨hm, by simp [isLoad, hty]⟩))
    obtain ⟨t', ht', e'⟩ := mem_post hdrop.symm ht
    refine ⟨t', List.mem_of_mem_drop ht', by rw [← post_alloc e', ha], ?_⟩
    rw [hp, ← (post_eq e').2.2.2.2]

theorem Run.perms (h : Run opts ops sched w w' file secs) (hf : FlagsOk ops) :
    ∀ ph ∈ w'.programHeaders, ph.p_type = PT_LOAD →
      ∃ s ∈ w'.sections, s.alloc = true ∧ ph.p_flags = segPerm s.sh.sh_flags := by
  obtain ⟨st, rfl⟩ := computeSections_stages h.compute
  exact st.perms h.valid h.hist.secFacts h.hist.untouched hf
end Dld
