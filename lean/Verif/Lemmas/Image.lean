import Verif.Lemmas.Trip
import Verif.Lemmas.Chunks
import Verif.Lemmas.Names
import Verif.Spec.Decode
import Verif.Lemmas.Bytes
/-! # The bytes of the output file -/
namespace Dld
open Writer

variable {opts : Options} {ops : List Op} {sched : Sched} {w w' : Writer} {file : Bytes} {secs : List Section}

/-- the null section keeps its place -/
theorem Run.null_head (h : Run opts ops sched w w' file secs) :
    ∃ s rest, w'.sections = s :: rest ∧ s.ptr = P.null ∧ s.kind = .plain ∧ s.link = none ∧ s.sh.sh_offset = 0 ∧ s.sh.sh_addr = 0 := by
  obtain ⟨st, rfl⟩ := h.stages
  have hu := h.hist.untouched
  have hsf := h.hist.secFacts
  obtain ⟨w0, pn, h0, hI⟩ := h.hist.winv
  obtain ⟨f1, _⟩ := st.final_post
  obtain ⟨p1, _⟩ := st.placed_eq hu
  obtain ⟨null, rest, e1, _, e2⟩ := sortSecs_ok st.hsort
  have e3 := st.presort hsf.known
  have e4 := (scan_sections st.hscan).1
  obtain ⟨n0, r0, e5, e6⟩ := hsf.head
  rw [e5] at e4
  cases hsc : st.scanned.sections with
  | nil => rw [hsc] at e4; cases e4
  | cons a as =>
    rw [hsc, List.map_cons, List.map_cons] at e4
    have hb : bare a = bare n0 := (List.cons.inj e4).1
    rw [e1, hsc, List.map_cons] at e3
    have hnull := (List.cons.inj e3).1
    have hsorted : st.sorted.sections.take 1 = [{ null with index := 0 }] := by rw [e2, List.mapIdx_cons]; rfl
    rw [hsorted] at p1
    rw [p1] at f1
    cases hfs : st.final.sections with
    | nil => rw [hfs] at f1; cases f1
    | cons s rest' =>
      rw [hfs] at f1
      have hp : post s = post { null with index := 0 } := (List.cons.inj f1).1
      have hg : st.growth a.ptr = {} := by
        have : a.ptr = P.null := (congrArg (·.1) hb).trans e6
        rw [this]; rfl
      rw [hg] at hnull
      have hsh : s.sh = n0.sh := by
        have h1 : s.sh = null.sh := congrArg (·.2.2.2.2) hp
        have h2 : a.sh = n0.sh := congrArg (·.2.2.2.2.1) hb
        rw [h1, hnull, ← h2]; rfl
      have hi : 0 < (tabNames opts.hashStyle).length := by cases opts.hashStyle <;> decide
      obtain ⟨b, n, _, hb0, _, _, _, hid, hM⟩ := hI.base0 h0 hi (by rw [e5]; rfl : w.sections[0]? = some n0)
      have hfr := (new_idents opts w0 h0).2.1 b (List.mem_of_getElem? hb0)
      have hptr : s.ptr = P.null := by
        have h1 : s.ptr = null.ptr := congrArg (·.1) hp
        rw [h1, hnull]; exact (congrArg (·.1) hb).trans e6
      have hk := hsf.known n0 (by rw [e5]; simp)
      have hor := origins_cases (hk.origin_of_ptr (by rw [e6]; decide))
      simp only [Section.origin, Prod.mk.injEq, e6] at hor
      simp [P.null, P.shstr, P.symstr, P.dynstr, P.interp, P.got, P.gotPlt, P.plt, P.sym, P.dynsym, P.dynamic, P.relaDyn, P.relaPlt,
        P.copyRel, P.hash, P.gnuHash] at hor
      refine ⟨s, rest', rfl, hptr, ?_, ?_, ?_, ?_⟩
      · have h1 : s.kind = null.kind := congrArg (·.2.2.2.1) hp
        have h2 : a.kind = n0.kind := congrArg (·.2.2.2.1) hb
        rw [h1, hnull, ← hor.2.1, ← h2]; rfl
      · have h1 : s.link = null.link := congrArg (·.2.2.1) hp
        have h2 : a.link = n0.link := congrArg (·.2.2.1) hb
        rw [h1, hnull, ← hor.1, ← h2]; rfl
      · rw [hsh, hM.sh]; exact hfr.2.2.1
      · rw [hsh, hM.sh]; exact hfr.2.1

/-- finalizing does not change the number of bytes in the file -/
theorem Run.disk_eq (h : Run opts ops sched w w' file secs) {s t : Section} (hs : s ∈ w'.sections) (hf : Finalized w' s t) :
    t.sizeOnDisk = s.sizeOnDisk := by
  unfold Section.sizeOnDisk
  rw [hf.type]
  by_cases hk : s.kind = .copyRel
  · obtain ⟨st, rfl⟩ := h.stages
    obtain ⟨s0, hs0, hfr⟩ := (st.sources h.valid h.hist.secFacts h.hist.untouched).1 s hs
    have hk0 := h.hist.secFacts.known s0 hs0
    have hp : s0.ptr = P.copyRel := hk0.copyRel_kind.1 (by rw [← hfr.kind]; exact hk)
    have : s.sh.sh_type = SHT_NOBITS := by rw [hfr.sh]; exact (hk0.nobits (by rw [hp]; decide)).2 hp
    rw [this]; simp
  · rw [hf.size (by rw [hf.kind]; exact hk)]

/-- what finalizing does to the contents -/
theorem finalizeSec_chunks {s t : Section} (h : finalizeSec sched w s = .ok t) :
    t.chunks = match s.kind with
      | .symtab => s.chunks.modify 0 fun _ => { data := w.symtab.chunk sched.symIter }
      | .dynsym => s.chunks.modify 0 fun _ => { data := w.dynsym.chunk sched.dynIter }
      | _ => s.chunks := by
  have tail : ∀ u : Section, (match u.link with
      | none => .ok u
      | some p => do
        let l ← w.sec p
        .ok { u with sh := { u.sh with sh_link := u32 l.index } }) = (.ok t : M Section) → t.chunks = u.chunks := by
    intro u h
    cases hl : u.link with
    | none => rw [hl] at h; cases h; rfl
    | some p =>
      rw [hl] at h
      simp only [bind_ok] at h
      obtain ⟨l, _, h⟩ := h
      cases h; rfl
  unfold finalizeSec at h
  cases hk : s.kind with
  | symtab =>
    simp only [hk] at h
    rw [bind_ok] at h
    obtain ⟨u, h1, h2⟩ := h
    obtain ⟨_, rfl⟩ := modifyChunk_ok h1
    exact tail _ h2
  | dynsym =>
    simp only [hk] at h
    rw [bind_ok] at h
    obtain ⟨u, h1, h2⟩ := h
    obtain ⟨_, rfl⟩ := modifyChunk_ok h1
    exact tail _ h2
  | copyRel =>
    simp only [hk] at h
    exact tail (setSize w.copyRel.size s) h
  | _ =>
    simp only [hk] at h
    exact tail s h


/-- a view that sees nothing -/
theorem blind_unit : Blind (fun _ : Symbol => ()) := ⟨fun _ _ _ _ => ⟨rfl, rfl⟩, fun _ _ => rfl, fun _ _ _ => rfl⟩

theorem Run.table_lens (h : Run opts ops sched w w' file secs) (st : Stages sched w) (hst : st.final = w') :
    w'.symtab.totalLen = st.scanned.symtab.totalLen ∧ w'.dynsym.totalLen = st.scanned.dynsym.totalLen := by
  subst hst
  obtain ⟨h1, h2⟩ := st.final_view blind_unit
  have h3 := scan_view blind_unit.scan st.hscan
  have h4 := st.scanned_dynsym
  unfold SymbolTable.totalLen
  rw [SymbolTable.view_length h1, SymbolTable.view_length h2, SymbolTable.view_length h3, h4]
  exact ⟨rfl, rfl⟩

/-- every section contributes as many bytes as its header says -/
theorem Run.contents_length (h : Run opts ops sched w w' file secs) (hc : CleanInputs ops) {i : Nat} {t : Section}
    (ht : secs[i]? = some t) : (contents t).length = t.sizeOnDisk := by
  obtain ⟨s, hs, hf, hfin⟩ := h.finalized ht
  have hsm := List.mem_of_getElem? hs
  rw [h.disk_eq hsm hf, ← h.content_length hc hsm, ← length_contents]
  have hch := finalizeSec_chunks hfin
  obtain ⟨st, hst⟩ := h.stages
  obtain ⟨l1, l2⟩ := h.table_lens st hst
  subst hst
  have hsf := h.hist.secFacts
  obtain ⟨w0, pn, h0, hI⟩ := h.hist.winv
  obtain ⟨s0, hs0, hfr⟩ := (st.sources h.valid hsf h.hist.untouched).1 s hsm
  have own : ∀ p, s0.ptr = p → p < P.first → p ≠ P.null → p ≠ P.interp → s0.chunks = [] := by
    intro p e h1 h2 h3
    obtain ⟨_, hd⟩ := hc.own hI h0 hs0 (by rw [e]; exact h1)
    rcases hd with ⟨e', _⟩ | ⟨_, hd⟩
    · exact absurd (e.symm.trans e') h2
    · rw [if_neg (by rw [e]; exact h3)] at hd
      exact List.map_eq_nil_iff.1 hd
  have hlen : ∀ d n, lens s = [n] → d.length = n → t.chunks = s.chunks.modify 0 (fun _ => { data := d }) →
      (contents t).length = (contents s).length := by
    intro d n e1 e2 e3
    unfold contents
    rw [e3]
    unfold lens at e1
    cases hcs : s.chunks with
    | nil => rw [hcs] at e1; cases e1
    | cons c cs =>
      rw [hcs] at e1
      cases cs with
      | cons => cases e1
      | nil =>
        simp only [List.map_cons, List.map_nil, List.cons.injEq, and_true] at e1
        simp [List.modify, e1, e2]
  by_cases hk1 : s.kind = .symtab
  · rw [hk1] at hch
    have hp := (hsf.known s0 hs0).symtab_ptr (by rw [← hfr.kind]; exact hk1)
    have hn := own _ hp (by decide) (by decide) (by decide)
    refine hlen _ _ ?_ ((SymbolTable.length_chunk h.valid.symIter _).trans l1) hch
    rw [hfr.lens, hp]
    simp [lens, hn, Early.growth, tableData, P.shstr, P.symstr, P.dynstr, P.got, P.gotPlt, P.plt, P.sym, P.dynamic, P.relaDyn, P.relaPlt,
      SymbolTable.length_chunk h.valid.symIter]
  · by_cases hk2 : s.kind = .dynsym
    · rw [hk2] at hch
      have hp := (hsf.known s0 hs0).dynsym_ptr (by rw [← hfr.kind]; exact hk2)
      have hn := own _ hp (by decide) (by decide) (by decide)
      refine hlen _ _ ?_ ((SymbolTable.length_chunk h.valid.dynIter _).trans l2) hch
      rw [hfr.lens, hp]
      simp [lens, hn, Early.growth, tableData, P.shstr, P.symstr, P.dynstr, P.got, P.gotPlt, P.plt, P.sym, P.dynsym, P.dynamic, P.relaDyn, P.relaPlt,
        SymbolTable.length_chunk h.valid.dynIter]
    · have : t.chunks = s.chunks := by
        rw [hch]; cases hk : s.kind <;> simp_all
      unfold contents; rw [this]

theorem writeSections_image {sched : Sched} {w : Writer} : ∀ {l : List Section} {o : Nat} {bs : Bytes} {secs : List Section},
    writeSections sched w o l = .ok (bs, secs) →
    (∀ (i : Nat) (s t : Section), l[i]? = some s → secs[i]? = some t → t.sh.sh_offset = s.sh.sh_offset ∧
      t.sizeOnDisk = s.sizeOnDisk ∧ (contents t).length = t.sizeOnDisk) →
    (∀ s ∈ l, o ≤ s.sh.sh_offset) → (l.Pairwise fun a b => a.sh.sh_offset + a.sizeOnDisk ≤ b.sh.sh_offset) →
    (∀ (i : Nat) (t : Section), secs[i]? = some t → ∃ pre post, bs = pre ++ contents t ++ post ∧ pre.length + o = t.sh.sh_offset) ∧
    bs.length + o = (l.getLast?.map fun s => s.sh.sh_offset + s.sizeOnDisk).getD o := by
  intro l
  induction l with
  | nil => intro o bs secs h; cases h; simp
  | cons a l ih =>
    intro o bs secs h hc ho hp
    simp only [writeSections, bind_ok, Prod.exists] at h
    obtain ⟨t, h1, bs', secs', h2, h3⟩ := h
    cases h3
    obtain ⟨c1, c2, c3⟩ := hc 0 a t rfl rfl
    have hoa := ho a (by simp)
    have hmax : max o a.sh.sh_offset = a.sh.sh_offset := by omega
    rw [hmax] at h2
    rw [List.pairwise_cons] at hp
    obtain ⟨i1, i2⟩ := ih h2 (fun i s t hs ht => hc (i + 1) s t (by simpa using hs) (by simpa using ht))
      (fun s hs => by rw [c2]; exact hp.1 s hs) hp.2
    have hct : (List.flatMap (fun x => x.data) t.chunks) = contents t := rfl
    rw [hct]
    refine ⟨?_, ?_⟩
    · intro i u hu
      cases i with
      | zero =>
        simp at hu; subst hu
        exact ⟨_, bs', rfl, by rw [List.length_replicate, c1]; omega⟩
      | succ i =>
        obtain ⟨pre, post, e1, e2⟩ := i1 i u (by simpa using hu)
        refine ⟨List.replicate (a.sh.sh_offset - o) 0 ++ contents t ++ pre, post, by rw [e1]; simp, ?_⟩
        simp only [List.length_append, List.length_replicate, c3]
        omega
    · simp only [List.length_append, List.length_replicate, c3]
      cases l with
      | nil =>
        cases h2
        simp; omega
      | cons b l =>
        simp only [List.getLast?_cons_cons]
        cases hg : (b :: l).getLast? with
        | none => simp at hg
        | some z =>
          rw [hg] at i2
          simp only [Option.map_some, Option.getD_some] at i2 ⊢
          omega

/-- the output file: headers and program headers, then every section at its offset, then the section
header table -/
structure Image (w' : Writer) (file : Bytes) (secs : List Section) : Prop where
  head : ∃ post, file = serHeader w'.eh ++ serVec serProgramHeader w'.programHeaders ++ post
  sec : ∀ (i : Nat) (t : Section), secs[i]? = some t → ∃ pre post, file = pre ++ contents t ++ post ∧
    (pre.length = t.sh.sh_offset ∨ t.sizeOnDisk = 0) ∧ pre.length + t.sizeOnDisk ≤ w'.eh.e_shoff
  tab : ∃ pre, file = pre ++ serVec (fun s => serSectionHeader s.sh) secs ∧ pre.length = w'.eh.e_shoff

theorem Run.image (h : Run opts ops sched w w' file secs) (hf : FlagsOk ops) (hd : NoDynamicPush ops) (hc : CleanInputs ops)
    (hn : NamesFit w) : Image w' file secs := by
  obtain ⟨hdr, st, hl⟩ := h.laid hf
  obtain ⟨w0, pn, h0, hI⟩ := h.hist.winv
  have hsf := h.hist.secFacts
  obtain ⟨_, _, h3, h4⟩ := hl.count hsf hI h0 hn hd
  obtain ⟨nul, rest, hw, np, nk, nl, no, na⟩ := h.null_head
  have hlen := h.secs_length
  have hwr := h.write
  simp only [writeToDisk, bind_ok, Prod.exists] at hwr
  obtain ⟨body, secs', h1, h2⟩ := hwr
  simp only [Except.ok.injEq, Prod.mk.injEq] at h2
  obtain ⟨hfile, rfl⟩ := h2
  have hfacts : ∀ (i : Nat) (s t : Section), w'.sections[i]? = some s → secs'[i]? = some t →
      t.sh.sh_offset = s.sh.sh_offset ∧ t.sizeOnDisk = s.sizeOnDisk ∧ (contents t).length = t.sizeOnDisk := by
    intro i s t hs ht
    obtain ⟨s', hs', hf', _⟩ := h.finalized ht
    rw [hs] at hs'; cases hs'
    exact ⟨hf'.offset, h.disk_eq (List.mem_of_getElem? hs) hf', h.contents_length hc ht⟩
  have hhead : (serHeader w'.eh ++ serVec serProgramHeader w'.programHeaders).length =
      sizeofHeader + w'.programHeaders.length * sizeofProgramHeader := by
    rw [List.length_append, serVec, length_flatMap_const length_serProgramHeader]
    have : (serHeader w'.eh).length = sizeofHeader := by rw [hl.eh]; simp [serHeader, initHeader, sizeofHeader]; rfl
    rw [this]
  rw [hw] at h1
  simp only [writeSections, bind_ok, Prod.exists] at h1
  obtain ⟨tn, t1, bs, ss, t2, t3⟩ := h1
  cases t3
  have hdr' : hdr = sizeofHeader + w'.programHeaders.length * sizeofProgramHeader := h4
  rw [no] at t2 hfile
  obtain ⟨n1, n2, n3⟩ := hfacts 0 nul tn (by rw [hw]; rfl) rfl
  have nz : tn.sizeOnDisk = 0 := by
    rw [n2]
    have hs : nul ∈ w'.sections := by rw [hw]; simp
    obtain ⟨st', e⟩ := h.stages
    subst e
    obtain ⟨s0, hs0, hfr⟩ := (st'.sources h.valid hsf h.hist.untouched).1 nul hs
    have hp0 : s0.ptr = P.null := by rw [← hfr.ptr]; exact np
    have := (hc.own hI h0 hs0 (by rw [hp0]; decide)).1
    rw [hp0, if_neg (by decide)] at this
    have hz : nul.sh.sh_size = 0 := by
      rw [hfr.sh, hp0]
      show (none : Option Nat).getD _ = 0
      exact this
    unfold Section.sizeOnDisk
    rw [hz]; simp
  have nc : contents tn = [] := List.eq_nil_of_length_eq_zero (by rw [n3, nz])
  rw [nz, Nat.max_eq_left (Nat.zero_le _), Nat.add_zero] at t2
  have hdrop : w'.sections.drop 1 = rest := by rw [hw]; rfl
  have hinv := hl.inv
  have hlast := hl.last
  rw [hdrop] at hinv hlast
  obtain ⟨i1, i2⟩ := writeSections_image t2 (fun i s t hs ht => hfacts (i + 1) s t (by rw [hw]; simpa using hs) (by simpa using ht))
    (fun s hs => by rw [← hdr']; exact (hinv.secs s hs).1) (hinv.secsAsc.imp fun h => h.1)
  have hbs : bs.length + (sizeofHeader + w'.programHeaders.length * sizeofProgramHeader) = w'.eh.e_shoff := by
    rw [i2, hl.shoff]
    have hne : rest ≠ [] := by
      intro e
      have := hl.secs
      rw [hw, e] at this
      have h5 := hI.len
      rw [← this] at h5
      have : 1 < (tabNames opts.hashStyle).length := by cases opts.hashStyle <;> decide
      simp at h5; omega
    cases hg : rest.getLast? with
    | none => exact absurd (List.getLast?_eq_none_iff.1 hg) hne
    | some z => simpa using hlast z hg
  have hct : (List.flatMap (fun x => x.data) tn.chunks) = contents tn := rfl
  rw [hct, nc] at hfile
  simp only [Nat.zero_sub, List.replicate_zero, List.nil_append] at hfile
  refine ⟨⟨bs ++ serVec (fun s => serSectionHeader s.sh) (tn :: ss), ?_⟩, ?_, ⟨serHeader w'.eh ++ serVec serProgramHeader w'.programHeaders ++ bs, ?_, ?_⟩⟩
  · rw [← hfile]; simp
  · intro i t ht
    cases i with
    | zero =>
      simp at ht; subst ht
      exact ⟨[], file, by rw [nc]; simp, .inr nz, by rw [nz]; simp⟩
    | succ i =>
      obtain ⟨pre, post, e1, e2⟩ := i1 i t (by simpa using ht)
      refine ⟨serHeader w'.eh ++ serVec serProgramHeader w'.programHeaders ++ pre, post ++ serVec (fun s => serSectionHeader s.sh) (tn :: ss), ?_, .inl ?_, ?_⟩
      · rw [← hfile, e1]; simp
      · rw [List.length_append, hhead]; omega
      · rw [List.length_append, hhead, ← hbs, e1]
        have := h.contents_length hc (i := i + 1) (t := t) (by simpa using ht)
        simp only [List.length_append]
        omega
  · rw [← hfile]
  · rw [List.length_append, hhead]; omega

end Dld
