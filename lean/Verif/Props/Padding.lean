import Verif.Props.Loose
/-! # C148: what is between the parts of the output -/
namespace Dld
open Writer Spec StringTable SymbolTable

variable {opts : Options} {ops : List Op} {sched : Sched} {w w' : Writer} {file : Bytes} {secs : List Section}

theorem writeSections_zero {sched : Sched} {w : Writer} : ∀ {l : List Section} {o : Nat} {bs : Bytes} {secs : List Section},
    writeSections sched w o l = .ok (bs, secs) →
    (∀ (i : Nat) (s t : Section), l[i]? = some s → secs[i]? = some t → t.sh.sh_offset = s.sh.sh_offset ∧
      t.sizeOnDisk = s.sizeOnDisk ∧ (contents t).length = t.sizeOnDisk) →
    (∀ s ∈ l, o ≤ s.sh.sh_offset) → (l.Pairwise fun a b => a.sh.sh_offset + a.sizeOnDisk ≤ b.sh.sh_offset) →
    ∀ (k : Nat) (b : UInt8), bs[k]? = some b → b = 0 ∨ ∃ t ∈ secs, t.sh.sh_offset ≤ o + k ∧ o + k < t.sh.sh_offset + t.sizeOnDisk := by
  intro l
  induction l with
  | nil => intro o bs secs h _ _ _ k b hb; cases h; cases hb
  | cons a l ih =>
    intro o bs secs h hc ho hp k b hb
    simp only [writeSections, bind_ok, Prod.exists] at h
    obtain ⟨t, h1, bs', secs', h2, h3⟩ := h
    cases h3
    obtain ⟨c1, c2, c3⟩ := hc 0 a t rfl rfl
    have hoa := ho a (by simp)
    have hmax : max o a.sh.sh_offset = a.sh.sh_offset := by omega
    rw [hmax] at h2
    rw [List.pairwise_cons] at hp
    have key := ih h2 (fun i s t hs ht => hc (i + 1) s t (by simpa using hs) (by simpa using ht))
      (fun s hs => by rw [c2]; exact hp.1 s hs) hp.2
    have hct : (List.flatMap (fun x => x.data) t.chunks) = contents t := rfl
    rw [hct, List.append_assoc, List.getElem?_append] at hb
    split at hb
    · rw [List.getElem?_replicate] at hb
      split at hb <;> cases hb
      exact .inl rfl
    · rename_i hk
      rw [List.length_replicate] at hk hb
      rw [List.getElem?_append] at hb
      split at hb
      · rename_i hk2
        exact .inr ⟨t, List.mem_cons_self, by omega, by omega⟩
      · rename_i hk2
        rcases key _ b hb with h | ⟨u, hu, g1, g2⟩
        · exact .inl h
        · refine .inr ⟨u, List.mem_cons_of_mem _ hu, ?_, ?_⟩ <;> omega

/-- **C148.** Every byte of the output is part of the ELF header, the program headers, a section or the section headers; all other bytes are zero. -/
theorem C148_padding (h : GoodRun opts ops sched w w' file secs) {k : Nat} {b : UInt8} (hb : file[k]? = some b)
    (hh : 64 + 56 * (decodeEhdr file).phnum ≤ k) (ht : k < (decodeEhdr file).shoff)
    (hs : ∀ e ∈ shdrs file, ¬ (e.offset ≤ k ∧ k < e.offset + e.fileSize)) : b = 0 := by
  have hr := h.run.reads h.good h.names h.fit
  rw [hr.ehdr] at hh ht
  dsimp only at hh ht
  rw [hr.shdrs] at hs
  have him := h.run.image h.good.flags h.good.dynamic h.good.clean h.names
  obtain ⟨hdr, st, hl⟩ := h.run.laid h.good.flags
  obtain ⟨w0, pn, h0, hI⟩ := h.run.hist.winv
  have hsf := h.run.hist.secFacts
  obtain ⟨_, _, h3, h4⟩ := hl.count hsf hI h0 h.names h.good.dynamic
  obtain ⟨nul, rest, hw, np, nk, nl, no, na⟩ := h.run.null_head
  have hwr := h.run.write
  simp only [writeToDisk, bind_ok, Prod.exists] at hwr
  obtain ⟨body, secs', h1, h2⟩ := hwr
  simp only [Except.ok.injEq, Prod.mk.injEq] at h2
  obtain ⟨hfile, rfl⟩ := h2
  have hfacts : ∀ (i : Nat) (s t : Section), w'.sections[i]? = some s → secs'[i]? = some t →
      t.sh.sh_offset = s.sh.sh_offset ∧ t.sizeOnDisk = s.sizeOnDisk ∧ (contents t).length = t.sizeOnDisk := by
    intro i s t hs ht
    obtain ⟨s', hs', hf', _⟩ := h.run.finalized ht
    rw [hs] at hs'; cases hs'
    exact ⟨hf'.offset, h.run.disk_eq (List.mem_of_getElem? hs) hf', h.run.contents_length h.good.clean ht⟩
  have hhead : (serHeader w'.eh ++ serVec serProgramHeader w'.programHeaders).length =
      sizeofHeader + w'.programHeaders.length * sizeofProgramHeader := by
    rw [List.length_append, serVec, length_flatMap_const length_serProgramHeader]
    have : (serHeader w'.eh).length = sizeofHeader := by rw [hl.eh]; simp [serHeader, initHeader, sizeofHeader]; rfl
    rw [this]
  rw [hw] at h1
  simp only [writeSections, bind_ok, Prod.exists] at h1
  obtain ⟨tn, t1, bs, ss, t2, t3⟩ := h1
  cases t3
  have hdr' : hdr = sizeofHeader + w'.programHeaders.length * sizeofProgramHeader := h4
  obtain ⟨n1, n2, n3⟩ := hfacts 0 nul tn (by rw [hw]; rfl) rfl
  have hdrop : w'.sections.drop 1 = rest := by rw [hw]; rfl
  have hinv := hl.inv
  rw [hdrop] at hinv
  have hz : tn.sizeOnDisk = 0 := by
    obtain ⟨z, hz, _, _, _, _, _, hz1, _⟩ := (C48_section_table h).2.2.2.2.1
    rw [hr.shdrs] at hz
    have hz : tn.sh.toSpec = z := Option.some.inj hz
    have : tn.sh.sh_size = 0 := by rw [← hz] at hz1; exact hz1
    unfold Section.sizeOnDisk
    rw [this]; simp
  have nc : contents tn = [] := List.eq_nil_of_length_eq_zero (by rw [n3, hz])
  rw [no] at t2 hfile
  rw [hz, Nat.max_eq_left (Nat.zero_le _), Nat.add_zero] at t2
  have key := writeSections_zero t2 (fun i s t hs ht => hfacts (i + 1) s t (by rw [hw]; simpa using hs) (by simpa using ht))
    (fun s hs => by rw [← hdr']; exact (hinv.secs s hs).1) (hinv.secsAsc.imp fun h => h.1)
  have hct : (List.flatMap (fun x => x.data) tn.chunks) = contents tn := rfl
  rw [hct, nc] at hfile
  simp only [Nat.zero_sub, List.replicate_zero, List.nil_append] at hfile
  have hN : sizeofHeader + w'.programHeaders.length * sizeofProgramHeader = 64 + 56 * w'.programHeaders.length := by
    show 64 + _ * 56 = _
    omega
  rw [hN] at hhead key
  have hlen : file.length = w'.eh.e_shoff + 64 * (tn :: ss).length := hr.length
  have htab : (serVec (fun s : Section => serSectionHeader s.sh) (tn :: ss)).length = (tn :: ss).length * 64 :=
    length_flatMap_const (f := fun s : Section => serSectionHeader s.sh) (k := 64) (fun s => length_serSectionHeader s.sh) (tn :: ss)
  rw [← hfile, List.length_append, List.length_append, hhead, htab] at hlen
  rw [← hfile, List.append_assoc, List.getElem?_append_right (by rw [hhead]; omega), hhead, List.getElem?_append_left (by omega)] at hb
  rcases key _ b hb with h | ⟨t, ht', g1, g2⟩
  · exact h
  · refine absurd ?_ (hs t.sh.toSpec (List.mem_map.2 ⟨t, List.mem_cons_of_mem _ ht', rfl⟩))
    refine ⟨by show t.sh.sh_offset ≤ k; omega, ?_⟩
    show k < t.sh.sh_offset + EShdr.fileSize _
    have : t.sh.toSpec.fileSize = t.sizeOnDisk := by
      simp only [EShdr.fileSize, SectionHeader.toSpec, Section.sizeOnDisk]
      by_cases h8 : t.sh.sh_type = SHT_NOBITS
      · simp [h8, SHT_NOBITS]
      · rw [if_pos h8]
        exact if_neg h8
    omega

/-- in the executable of `demoLinker` the byte 0xfff is between two sections -/
example : ∃ log loaded w w' f s, LinkRun demoEnv demoLinker LinkSched.id loaded log w w' f s ∧
    (∃ k, 64 + 56 * (decodeEhdr f).phnum ≤ k ∧ k < (decodeEhdr f).shoff ∧ (∀ e ∈ shdrs f, ¬ (e.offset ≤ k ∧ k < e.offset + e.fileSize)) ∧ f[k]? = some 0) := by
  obtain ⟨log, loaded, w, w', f, s, h1, h2, h3, hp⟩ := LinkRun.of_links
    (P := fun _ _ f _ => decide (64 + 56 * (decodeEhdr f).phnum ≤ 0xfff) && decide (0xfff < (decodeEhdr f).shoff) &&
      (shdrs f).all fun e => !(decide (e.offset ≤ 0xfff) && decide (0xfff < e.offset + e.fileSize))) (fuel := 5) LinkSched.id_valid demo_files (by decide +kernel)
  simp only [Bool.and_eq_true, decide_eq_true_eq, List.all_eq_true, Bool.not_eq_true', Bool.and_eq_false_iff, decide_eq_false_iff_not] at hp
  obtain ⟨⟨g1, g2⟩, g3⟩ := hp
  have g4 : ∀ e ∈ shdrs f, ¬ (e.offset ≤ 0xfff ∧ 0xfff < e.offset + e.fileSize) := by
    intro e he ⟨a, b⟩
    rcases g3 e he with h | h
    · exact h a
    · exact h b
  have hlt : 0xfff < f.length := by
    have := (C39_file_ranges h3.good.toGoodRun).2.2.2
    omega
  have := C148_padding h3.good.toGoodRun (List.getElem?_eq_getElem hlt) g1 g2 g4
  exact ⟨log, loaded, w, w', f, s, h3, 0xfff, g1, g2, g4, by rw [List.getElem?_eq_getElem hlt, this]⟩

end Dld
