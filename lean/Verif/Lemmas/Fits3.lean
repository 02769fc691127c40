import Verif.Lemmas.Fits2
import Verif.Lemmas.TableRead
/-! # The output of a link of well-formed inputs can be read back exactly -/
namespace Dld
open Writer Spec StringTable

variable {opts : Options} {ops : List Op} {sched : Sched} {w w' : Writer} {F : List Nat} {V K : Nat}

/-! ### The addresses of segments -/

/-- no segment starts beyond the address reached, nor does a loaded one end beyond it -/
def LayoutState.Below (st : LayoutState) : Prop :=
  ∀ ph ∈ st.phs ++ st.cur.toList, ph.p_vaddr ≤ st.pVaddr ∧ ph.p_paddr ≤ st.pVaddr ∧ ph.p_flags < 256 ^ 4 ∧
    (ph.p_vaddr + ph.p_memsz ≤ st.pVaddr ∨ isLoad ph = false)

theorem placeSection_below (st : LayoutState) (s : Section) (h : st.Below) : (placeSection st s).1.Below ∧ st.pVaddr ≤ (placeSection st s).1.pVaddr := by
  have hr := le_roundTo st.pVaddr PAGE_ALIGNMENT
  unfold placeSection loadHeader placeInFile
  simp only
  split
  · split
    · refine ⟨?_, ?_⟩
      · intro ph hph
        simp only [Option.toList_some, List.mem_append, List.mem_singleton] at hph
        simp only
        rcases hph with hph | hph
        · obtain ⟨h1, h2, h3, h4⟩ := h ph (by simpa using hph)
          exact ⟨by omega, by omega, h3, h4.imp (fun h4 => by omega) id⟩
        · rw [hph]
          refine ⟨?_, ?_, ?_, .inl ?_⟩
          · simp only; omega
          · simp only; omega
          · simp only
            split <;> split <;> decide
          · simp only [Section.setAddress]; omega
      · simp only; omega
    · refine ⟨?_, by simp⟩
      intro ph hph
      simp only [Option.toList_none, List.append_nil] at hph
      exact h ph hph
  · split
    · next hc =>
      refine ⟨?_, by simp⟩
      intro ph hph
      exact h ph hph
    · next ph0 hc =>
      refine ⟨?_, by simp only; omega⟩
      intro ph hph
      simp only [Option.toList_some, List.mem_append, List.mem_singleton] at hph
      simp only
      rcases hph with hph | hph
      · obtain ⟨h1, h2, h3, h4⟩ := h ph (by simp [hph])
        exact ⟨by omega, by omega, h3, h4.imp (fun h4 => by omega) id⟩
      · obtain ⟨h1, h2, h3, h4⟩ := h ph0 (by simp [hc])
        rw [hph]
        refine ⟨by simp only; omega, by simp only; omega, h3, h4.imp (fun h4 => ?_) id⟩
        simp only [Section.setAddress]; omega

theorem layoutStep_below (isInterp : SectionHeader → Bool) (st : LayoutState) (s : Section) (h : st.Below) : (layoutStep isInterp st s).1.Below := by
  obtain ⟨h1, h2⟩ := placeSection_below st s h
  rw [layoutStep_eq]
  intro ph hph
  simp only [List.mem_append, or_assoc] at hph
  rcases hph with hph | hph
  · have hnl : isLoad ph = false := by
      rcases specialOf_not_load _ _ _ ph hph with e | e <;> · unfold isLoad; rw [e]; decide
    unfold specialOf at hph
    split at hph
    · cases hph
    · simp only [List.mem_singleton] at hph
      refine ⟨?_, ?_, ?_, .inr hnl⟩
      · rw [hph]; exact h2
      · rw [hph]; exact h2
      · rw [hph]
        simp only
        split <;> decide
  · exact h1 ph (by simpa using hph)

theorem layoutLoop_below (isInterp : SectionHeader → Bool) (l : List Section) (st : LayoutState) (h : st.Below) : (layoutLoop isInterp st l).1.Below := by
  induction l generalizing st with
  | nil => exact h
  | cons s l ih =>
    simp only [layoutLoop]
    exact ih _ (layoutStep_below isInterp st s h)

theorem Writer.Stages.sh_fits (st : Stages sched w) (hv : sched.Valid) (h : Hist opts ops w) (hF : FieldsFit ops) (hf : FlagsOk ops)
    (hl : w.dynsym.symbols.length < 2 ^ 32) (hs : w.span < 2 ^ 32) {s : Section} (hx : s ∈ st.final.sections) : s.sh.Fits := by
  obtain ⟨i, hi⟩ := List.getElem?_of_mem hx
  obtain ⟨p, hp, e⟩ := getElem?_of_map st.final_post.1 hi
  have e : s.sh = p.sh := congrArg (·.2.2.2.2) e
  rw [e]
  exact st.toEarly.placed_fits hv h hF hf hl hs hp

theorem Writer.Stages.segs_fit (st : Stages sched w) (hv : sched.Valid) (h : Hist opts ops w) (hF : FieldsFit ops) (hf : FlagsOk ops)
    (hl : w.dynsym.symbols.length < 2 ^ 32) (hs : w.span < 2 ^ 32) : ∀ p ∈ st.final.programHeaders, p.Fits := by
  obtain ⟨hdr, lst, hL⟩ := st.laid hv h.secFacts h.untouched hf
  obtain ⟨ph, e, a1, a2, a3, a4, a5, a6, a7, a8⟩ := hL.phs
  have hwt : w.weight + 1024 + 0x200000 ≤ w.span := by unfold Writer.span; omega
  have hfo : lst.fileOffset ≤ w.weight + 1024 := by
    obtain ⟨entry, s, ph, phs, h1, _, _, _, _, h2⟩ := finishHeader_ok st.hfinal
    have := hL.shoff
    rw [← this, h2]
    show st.tables.fileOffset ≤ _
    rw [st.final_post.2.2.2.2.2.2.2.2.1]
    exact st.toEarly.fileOffset_le hv h hl
  have hphs : lst.phs = (finalState (fun sh => w.shstr.name sh.sh_name == some b!".interp") sizeofProgramHeader 0x200000 st.sorted.sections).1.phs := by
    obtain ⟨entry, s, ph', phs', h1, h3, _, _, _, h2⟩ := finishHeader_ok st.hfinal
    rw [st.final_post.2.1, (st.placed_eq h.untouched).2.1] at h3
    have h3 := (List.cons.inj h3).2
    rw [h2] at e
    rw [h3]
    exact (List.cons.inj e).2.symm
  have hpv : (finalState (fun sh => w.shstr.name sh.sh_name == some b!".interp") sizeofProgramHeader 0x200000 st.sorted.sections).1.pVaddr ≤ w.span := by
    have h2 := st.toEarly.pVaddr_le hv h hl
    obtain ⟨s1, _, _, s2, s3, s4, _, s5, _⟩ := st.sorted_rest
    have hu := h.untouched
    have hb : st.placed.pVaddr = (finalState (fun sh => w.shstr.name sh.sh_name == some b!".interp") sizeofProgramHeader 0x200000 st.sorted.sections).1.pVaddr := by
      unfold Early.placed genProgramHeaders
      rw [s1, s2, s3, s4, s5, hu.eh, hu.programHeaders, hu.pVaddr, hu.fileOffset]
      have : initHeader.e_phentsize = sizeofProgramHeader := rfl
      rw [this, generateProgramHeaders_eq]
    rw [hb] at h2
    unfold Writer.span
    omega
  have hbelow := layoutLoop_below (fun sh => w.shstr.name sh.sh_name == some b!".interp") (st.sorted.sections.drop 1)
    { fileOffset := 0, pVaddr := 0x200000, extra := some (countProgramHeaders st.sorted.sections * sizeofProgramHeader + sizeofHeader), flags := 0, cur := none, phs := [] }
    (by intro ph hph; cases hph)
  intro q hq
  rw [e, List.mem_cons] at hq
  rcases hq with rfl | hq
  · have h16 := u16_lt st.final.programHeaders.length
    have z1 : sizeofProgramHeader = 56 := rfl
    have z2 : sizeofHeader = 64 := rfl
    rw [z1] at a5
    rw [z2] at a4 a7
    refine ⟨?_, ?_, by omega, by omega, by omega, by omega, by omega, by omega⟩
    · rw [a1]; decide
    · rw [a2]; decide
  · have hb := hbelow q (List.mem_append_left _ (by rw [hphs] at hq; exact hq))
    have hb1 : q.p_vaddr ≤ w.span := Nat.le_trans hb.1 hpv
    have hb2 : q.p_paddr ≤ w.span := Nat.le_trans hb.2.1 hpv
    cases hld : isLoad q with
    | true =>
      have hm : q ∈ lst.loads := by rw [hL.loads]; exact List.mem_filter.2 ⟨hq, hld⟩
      obtain ⟨l1, _, _, l2, _, _, _, l3, l4⟩ := hL.inv.loadsOk q hm
      have hb4 : q.p_vaddr + q.p_memsz ≤ w.span := by
        rcases hb.2.2.2 with h4 | h4
        · exact Nat.le_trans h4 hpv
        · rw [hld] at h4; cases h4
      refine ⟨?_, hb.2.2.1, by omega, by omega, by omega, by omega, by omega, ?_⟩
      · rw [l1]; decide
      · rw [l2]; decide
    | false =>
      obtain ⟨a, s, b, old, e1, e2, _⟩ := hL.sinv.src q hq hld
      have hsm : s ∈ st.final.sections := List.mem_of_mem_drop (i := 1) (by rw [e1]; simp)
      have hfit := st.sh_fits hv h hF hf hl hs hsm
      have hd := sizeOnDisk_le s
      have hsz := hfit.size
      unfold specialOf at e2
      split at e2
      · cases e2
      · next ty hty =>
        simp only [List.mem_singleton] at e2
        rw [e2] at hb1 hb2 ⊢
        refine ⟨?_, ?_, hfit.offset, ?_, ?_, ?_, hfit.size, hfit.addralign⟩
        · rcases specialOf_not_load (fun sh => w.shstr.name sh.sh_name == some b!".interp") old s q (by unfold specialOf; rw [hty, e2]; simp) with e | e <;>
            · rw [e2] at e; rw [e]; decide
        · show PF_R ||| (if hasFlag s.sh.sh_flags SHF_WRITE then PF_W else 0) < 256 ^ 4
          split <;> decide
        · simp only at hb1 ⊢; omega
        · simp only at hb2 ⊢; omega
        · simp only; omega

/-! ### The bounds of a well-formed link -/

namespace Spec.WellFormed

theorem within (D : WellFormed opts ops w F V K) (h : Hist opts ops w) : Within ops w V K := by
  refine ⟨D.fits.values, D.fits.addends, D.fits.mentions, ?_⟩
  have h1 := D.fits.small
  have h2 := Nat.mul_le_mul_left (K + 5) h.span_le
  omega

theorem span_lt (D : WellFormed opts ops w F V K) (h : Hist opts ops w) : w.span < 2 ^ 27 := by
  have h1 := (D.within h).small
  have h2 : 5 * w.span ≤ (K + 5) * w.span := Nat.mul_le_mul_right _ (by omega)
  omega

theorem names (D : WellFormed opts ops w F V K) (h : Hist opts ops w) :
    NamesFit w ∧ w.symstr.totalLen < 2 ^ 32 ∧ w.dynstr.totalLen < 2 ^ 32 ∧ w.dynsym.symbols.length < 2 ^ 31 ∧ w.sections.length < 65536 := by
  have h1 := D.span_lt h
  unfold Writer.span Writer.weight at h1
  have h2 : 4300 * w.sections.length ≤ (w.sections.map fun s => s.sh.sh_size + 4300).sum := by
    induction w.sections with
    | nil => simp
    | cons a l ih => simp only [List.map_cons, List.sum_cons, List.length_cons]; omega
  unfold NamesFit
  omega

end Spec.WellFormed

/-- a link of well-formed inputs of moderate size stores every number exactly -/
theorem Run.numbers {file : Bytes} {secs : List Section} (r : Run opts ops sched w w' file secs) (D : WellFormed opts ops w F V K) (hF : FieldsFit ops) :
    NumbersFit w' file secs := by
  have h := r.hist
  have hv := r.valid
  obtain ⟨hn, hs, hds, hl, hc⟩ := D.names h
  have hsp := D.span_lt h
  have hsm := (D.within h).small
  have hlen := r.secs_length
  obtain ⟨hdr, lst, hL⟩ := r.laid D.good.flags
  have him := r.image D.good.flags D.good.dynamic D.good.clean hn
  obtain ⟨pre, e2, e3⟩ := him.tab
  have htab : (serVec (fun s : Section => serSectionHeader s.sh) secs).length = secs.length * 64 :=
    length_flatMap_const (f := fun s : Section => serSectionHeader s.sh) (k := 64) (fun s => length_serSectionHeader s.sh) secs
  have hflen : file.length = w'.eh.e_shoff + 64 * secs.length := by
    have := congrArg List.length e2
    rw [List.length_append, e3, htab] at this
    omega
  obtain ⟨st, rfl⟩ := r.stages
  have hcount := hL.secs
  have hwt : w.weight + 1024 + 0x200000 ≤ w.span := by unfold Writer.span; omega
  obtain ⟨entry, sh, ph, phs, h1, h2, h3, h4, _, h5⟩ := finishHeader_ok st.hfinal
  have hsym : st.final.symtab = st.tables.symtab := by rw [h5]
  have hfo : st.final.eh.e_shoff ≤ w.weight + 1024 := by
    rw [h5]
    show st.tables.fileOffset ≤ _
    rw [st.final_post.2.2.2.2.2.2.2.2.1]
    exact st.toEarly.fileOffset_le hv h (by omega)
  have hseg : st.final.programHeaders.length ≤ F.length + 7 := by
    have := (st.toEarly.headers hv h D.good.flags D.good.dynamic hn D.flags).1
    rw [← st.final_post.2.1, h2] at this
    rw [h5]
    exact this
  have hk := D.kinds
  refine ⟨?_, by omega, by omega, by omega, ?_, st.segs_fit hv h hF D.good.flags (by omega) (by omega)⟩
  · have hent : st.final.eh.e_entry = entry := by rw [h5]
    rw [hent]
    cases hg : st.tables.symstr.get b!"_start" with
    | none =>
      rw [h4 hg, st.final_post.2.2.2.2.2.2.1, st.sorted_rest.2.2.2.1, h.untouched.eh]
      decide
    | some e =>
      obtain ⟨y, hy, e⟩ := h3 e hg
      rw [e]
      rw [← hsym] at hy
      have := (st.sym_fits hv h D hF hn (by omega) (by omega) hy).2
      omega
  · intro t ht
    obtain ⟨i, hi⟩ := List.getElem?_of_mem ht
    obtain ⟨s, hs', hfin, hfs⟩ := r.finalized hi
    have hfit := st.sh_fits hv h hF D.good.flags (by omega) (by omega) (List.mem_of_getElem? hs')
    have hlk := finalizeSec_linkFits hfs
    have hcr : st.final.copyRel.size < 256 ^ 8 := by
      obtain ⟨ns, nd, T⟩ := h.tableFacts
      rw [st.final_tables.2.2.2.2.2.2.2.1, (st.toEarly.linkRels hv h).size]
      have := st.toEarly.copies_le hv T D.dyns D.clean hds
      omega
    rw [hfin.sh]
    refine ⟨hfit.name, hfit.type, hfit.flags, hfit.addr, hfit.offset, ?_, ?_, hfit.info, hfit.addralign, hfit.entsize⟩
    · simp only
      split
      · exact hcr
      · exact hfit.size
    · rcases hlk with e | e
      · show t.sh.sh_link < _
        rw [e]; exact hfit.link
      · exact e

/-- the keys of the symbol tables are those of the calls -/
theorem Writer.Stages.keys_nodup (st : Stages sched w) (hv : sched.Valid) (h : Hist opts ops w) :
    (AMap.keys st.final.symtab.symbols).Nodup ∧ (AMap.keys st.final.dynsym.symbols).Nodup := by
  obtain ⟨ns, nd, T⟩ := h.tableFacts
  rw [SymbolTable.view_keys st.final_unplace.1, SymbolTable.view_keys st.final_unplace.2, SymbolTable.view_keys (st.linkRels hv h).tab,
    SymbolTable.view_keys (st.linkRels hv h).dyn, SymbolTable.view_keys (scan_view sym_blind st.hscan)]
  exact ⟨T.nodup, T.dynNodup⟩

/-- everything that is assumed about links when their output is decoded follows from the inputs -/
theorem Run.goodLink {file : Bytes} {secs : List Section} (r : Run opts ops sched w w' file secs) (D : WellFormed opts ops w F V K) (hF : FieldsFit ops)
    (hc : NamesClean ops) : GoodLink opts ops sched w w' file secs := by
  have h := r.hist
  have hv := r.valid
  obtain ⟨hn, hs, hds, hl, _⟩ := D.names h
  have hsp := D.span_lt h
  have hsm := (D.within h).small
  have hfit := r.numbers D hF
  obtain ⟨st, rfl⟩ := r.stages
  obtain ⟨k1, k2⟩ := st.keys_nodup hv h
  obtain ⟨r1, r2⟩ := st.rels_fit hv h D hds hl (by omega)
  refine ⟨⟨r, D.good, hc, hn, hfit⟩, hs, hds, ?_, ?_, r1, r2, D.clean, D.dyns⟩
  · rintro ⟨k, s⟩ hm
    have hg : st.final.symtab.get (.named k) = some s := AMap.get?_of_mem k1 hm
    exact (st.sym_fits hv h D hF hn (by omega) (by omega) hg).1
  · rintro ⟨k, s⟩ hm
    have hg : st.final.dynsym.get (.named k) = some s := AMap.get?_of_mem k2 hm
    exact st.dyn_fits hv h D hF hds (by omega) (by omega) hg

end Dld
